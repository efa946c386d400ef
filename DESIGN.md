# Formal model of amarin/gomorphy in Lean 4 - design

## Approach

The repository is a trie-backed morphological dictionary: `internal/index` (the trie, the interning tables for tag
sets and for collections of tag sets, the binary file format, `Optimize`), `pkg/dag` (tag names and the tag registry),
`pkg/storage` (packed ids and generic set tables), `pkg/opencorpora` (XML import, download/update state machine,
save/load) and two command line tools.

* **Model** (`lean/Verif/Model/*.lean`): small total functions over `List`, `UInt8/16/32`, `Int32`, `Option`, written
  function by function after the Go code; every definition cites the file and lines it models. Fixed width integers are
  real fixed width integers (`UInt8`, `UInt16`, `UInt32`, `Int32`), so truncation and wrap-around are in the model.
  Results are `Out α = ok | err | panic | diverge`; a Go run-time panic is a value, so "does not panic" is provable and
  "panics" is a provable finding.
* **Specification** (`lean/Verif/Spec/*.lean`): a dictionary is a list of distinct words (node `k` spells `nodes[k]`),
  a list of registered tags and the history of attached readings. No ids are packed, no tables, no maps. The other files
  of `Spec/` say what a document, a file, a set of arguments, a well-formed UTF-8 text is.
* **Refinement**: one relation `Refines : Index → Dict → Prop`; every API call preserves it and returns the
  specification's answer. Most of C01-C14, C17, C23, C54 are corollaries over all histories (`Run h ix`: the calls `h` on
  a new index lead to `ix` without exceeding a capacity).
* **Codec**: writers emit bytes, readers are functions `bytes → Out (value × rest)`. Generic facts per reader:
  *round-trip*, *framing* (a successful read stays successful, with the same value, when bytes are appended), *no crash*,
  *canonical* (what loads is what would be written). Framing plus round-trip gives "no strict prefix loads" (crash safety).
* **Concurrency**: small-step state machines over explicit schedules; no bound on threads or steps (C37-C39, C73, C90).
* **Heap**: where aliasing of slices matters (`Model/Heap.lean`, `Model/HeapIndex.lean`) slices are references
  (array, offset, length, capacity) and `append` may or may not copy, as an arbitrary growth policy says (C51, C52).
  Everywhere else slices are values; C51 and `C52_index` are the proofs that this is harmless for the importer and the index.
* **World**: the loader runs against an oracle `Env` (every answer of the network, the file system and the decoders may
  differ at every call) and a disk `World`; a trace of the disk states passed on the way gives the crash points.
* **Findings**: where the unchanged code violates the property a user relies on, the negation is proved with a concrete
  witness (theorem names starting `not_`) and the part that does hold is proved with the suffix `_partial`.

Property theorems live in `lean/Verif/Props/*.lean`, apart from helper lemmas (`lean/Verif/Lemmas/*.lean`). Beside them are
`example`s showing concrete states that meet the hypotheses. `Run` is not a disguised restriction: `small_runs` and
`room_runs` prove that every history within explicit, decidable limits on the calls themselves is a run, and `doc_runs` the
same for every document within limits on the document.

## Plan per property

| id | model / proof |
|----|---------------|
| C01 | refinement; induction over the continuation history; spec node list only grows |
| C02 | refinement; spec node list = prefix closure of added sequences; `C02_exact` (and `C03_exact`, `C05_exact`, `C53_exact`) drop the exclusion of leading NULs after a load |
| C03 | refinement; `Word` with fuel (adequacy proved), UTF-8 model; also `C03_exact`, `C03_add_exact` |
| C04 | refinement; node list is duplicate free and is the prefix closure |
| C05 | refinement; `Nodup` of spec node list; also `C05_exact`, `C05_range_exact` |
| C06 | refinement; spec add of present path is identity |
| C07 | direct on the model, all states |
| C08 | refinement |
| C09 | refinement, reading part; capacity hypothesis `Fits` on every state of the history |
| C10 | false of the code: negation by witness; `C10_exact` says for every word what is shown instead; C09 is the partial version |
| C11 | direct on the model, all states |
| C12 | refinement invariant on counters |
| C13 | corollary of the refinement |
| C14 | corollary of the refinement: answer depends on the set of readings |
| C15 | induction over TagID calls |
| C16 | false: proved for every registry of 256 names; without exceptions: `C16_exact` |
| C17 | codec round trip + refinement of the rebuilt index |
| C18 | false: exact characterisation + witness; without exceptions: `C18_exact` |
| C19 | reader stability + round trip |
| C20 | round trip with arbitrary rest |
| C21 | direct, induction over registry |
| C22 | totality/no panic proved for all bytes; termination of lookups false for crafted files: witness; without exceptions: `C22_word_exact`, `C22_lookup_exact`, `C22_readings_exact` |
| C23 | refinement preserved by `optimize` |
| C24 | direct on invariant |
| C25 | false: witness; partial: loading into a new index; without exceptions: `C25_exact` |
| C26 | bit vector lemmas, all values |
| C27 | induction over Index calls |
| C28 | false: proved for every full table; without exceptions: `C28_exact8`, `C28_exact16` |
| C29 | false: witness + exact condition; without exceptions: `C29_exact8`, `C29_exact16` |
| C30 | codec round trip; truncation proved for every longer set; without exceptions: `C30_exact8`, `C30_exact16` |
| C31 | induction over Index calls |
| C32 | false: witness |
| C33 | induction over Index calls |
| C34 | false: witnesses; exact condition for no panic; without exceptions: `C34_variants_exact` |
| C35 | direct |
| C36 | invariant over creations |
| C37 | small-step machine, invariant over all schedules; lost write witness at word granularity; without exceptions: `C37_exact`, `C37_exact_id` |
| C38 | loaded index has all map entries; small-step machine |
| C39 | false: witness; without exceptions: `C39_exact` |
| C40 | XML tree semantics; induction over the tree |
| C41 | parser step function |
| C42 | invariant over well-nested streams; dotted element names are a counterexample; without exceptions: `C42_exact` |
| C43 | counter invariant |
| C44 | composition of C40, C09, C23, C17; `C44_exact` leaves nothing out (C10_exact for forms without tags, C18_exact for leading NULs) |
| C45 | decision model of `Update` over environment answers |
| C46 | false: file/time model, witness for all failure points; without exceptions: `C46_exact` |
| C47 | file model with crash points + C19 |
| C48 | false: witness; without exceptions: `C48_exact` |
| C49 | false: command model, witnesses; exact safe subset; without exceptions: `C49_exact` |
| C50 | UTF-8 model |
| C51 | slice/heap model of `append` with arbitrary capacity growth |
| C52 | false: heap model witness; value semantics of the internal caller proved; without exceptions: `C52_exact` |
| C53 | refinement of error value; also `C53_exact` |
| C54 | refinement of the children map |
| C55 | decision model; panic witness; without exceptions: `C55_exact` |
| C56 | direct on the model of `Node.String`; false for letters outside ASCII; without exceptions: `C56_exact` |
| C57 | loader oracle + codec; false for a write error that only `Close` reports; without exceptions: `C57_exact` |
| C58 | loader oracle; false: the file is truncated first; without exceptions: `C58_exact` |
| C59 | loader oracle; false: the HTTP status is ignored; without exceptions: `C59_exact` |
| C60 | loader oracle; false for every environment: only the default directory is made; without exceptions: `C60_exact` |
| C61 | loader oracle; false: failed unpack, then "up to date"; without exceptions: `C61_exact` |
| C62 | composition of the loader oracle with C40, C44, C17; `C62_exact` with C44_exact |
| C63 | command model; false: words that are commands; without exceptions: `C63_exact` |
| C64 | canonical codec: induction over every section of the file |
| C65 | codec, first marker |
| C66 | codec; false at 256 tags, by a history of calls; without exceptions: `C66_tags_exact` |
| C67 | receiver model (what a failing load has stored already); false: witnesses; without exceptions: `C67_exact` |
| C68 | allocation count of the receiver model; false for eleven-byte files |
| C69 | codec; false for a file announcing zero nodes; without exceptions: `C69_exact` |
| C70 | `flag` package + `main` + loader oracle; false: witnesses; without exceptions: `C70_exact` |
| C71 | loader oracle run twice; false when the local clock is behind; without exceptions: `C71_exact` |
| C72 | `toolLoop`: induction over the lines |
| C73 | small-step machine of `AddToNode` with the inner maps in a heap, invariant over all schedules; false: lost word, wiped map, map race; exactly the words below a forgotten node are lost; without exceptions: `C73_exact` |
| C74 | heap model of the index with the caller's assignments to answers (`Model/Session.lean`), invariant over all action sequences; holds for readings, false for tag lists, children maps, stored sets and collections |
| C75 | invariant: every stored set is the one of a logged reading; the replies of `tag`, `set`, `var` as functions of the abstract dictionary; false for tag names that are numbers or differ in case only; without exceptions: `C75_readings_exact`, `C75_tag_exact` |
| C76 | `Optimize` with the debug message as a step that may panic and with partial updates kept: for histories the numbers listed under a collection are distinct positions, so each entry still has its old collection when the message looks it up; false for foreign files; without exceptions: `C76_exact` |
| C77 | the layout of the file specified apart from the codec (`Spec/Layout.lean`); every saved file is the image of contents that describe the dictionary, every image of valid contents loads to an index with those words, tags and readings; size formula, growth per word |
| C78 | two histories with the same content (as sets) compared through the refinement, word by word and not by node number; documents reduced to histories; false for words with an empty reading; without exceptions: `C78_exact` |
| C79 | the texts as byte strings; numbers and joined lists can be read back (prefix-free pieces); maps as arbitrary enumerations, the listing sorted; false for `IdMap.String` with 2–9 entries and for names with commas; without exceptions: `C79_map_exact`, `C79_nodeMap_exact` |
| C80 | records with pointers that may be nil; loops; search characterised by sublist and multiplicity; false (panic) with nil categories and, for texts, with commas; without exceptions: `C80_tags_exact`, `C80_lemma_exact`, `C80_text_exact`, `C80_grammemes_exact` |
| C81 | `path.Clean`/`Join`, `filepath.Abs`/`Split`/`Ext` after their documentation; a separate specification of where a path leads; cleaning keeps the location, joining goes on from it; false for domain names with `..` and for the root; without exceptions: `C81_domain_exact` |
| C82 | composition of C62, C70 and the session model of C72: the update command, then any session of the tool, reply by reply; `C82_exact` also for forms without tags and for lines starting with NUL |
| C83 | an inductive relation of harmless changes (`Spec/SaysSame.lean`); every change keeps the entries of the document, and the parser depends on nothing else (C43); false for a comment inside a grammeme name; without exceptions: `C83_exact`, `C83_exact_same` |
| C84 | `strconv.ParseInt/ParseUint` with base 0 modelled (`Model/Numbers.lean`) and composed with C75 and C49; printed forms `%v`, `0x%X`, `%03d`; false: `%03d` is read back as octal; without exceptions: `C84_exact` |
| C85 | the clock as an arbitrary monotone function of the number of readings; invariant: the next report is at least ten seconds after the start |
| C86 | histories of loader calls with arbitrary environments, each cut off at any moment; invariant: the content of each file is a prefix of what its predecessor yields; with C44 the loaded index is that of an offered document, or the empty one |
| C87 | oracle model of the loader with numbered calls; case analysis of the checks and of the first switch of `Update` |
| C88 | the printed text of a node as bytes (`Model/Printed.lean`); injectivity: no eight bytes after the parent line are a label, names are read in steps of five bytes, UTF-8 is prefix-free; false for names of another length |
| C89 | a sorting algorithm as a tree of comparisons and swaps of positions (`Model/Sort.lean`), any that sorts lists of numbers; a run sees only the order of the keys, so it commutes with the embedding of the ids in the numbers; in memory by induction on the run |
| C90 | the machine of C73, with threads that look up; false: map race, and a lookup that wipes out the map an addition has just filled; exactly the words below a forgotten node are lost; where nothing is forgotten each lookup answers as of a moment of the call (its last reading of a map); exactly which calls can meet in a map: those beside one that makes a new map, and those that pass the place of a new last letter; without exceptions: `C90_exact`, `C90_race_exact` |
| C91 | integer literals after the Go language specification (`Spec/IntLit.lean`), independent of `strconv`; `parseInt0`, `parseUint0`, `atoi` proved to read exactly these within their limits; exact replies of `set`, `var`, `node`, `tag`, `set table` for every text; false: `set` and `node` cut the number to 32 bits; without exceptions: `C91_set_exact`, `C91_node_exact`, `C91_tag_exact` |
| C92 | goroutines as programs over cells of a shared memory, one access at a time (`Model/Threads.lean`), for any number of goroutines and any schedule; `TagID`, `AddTagSet`, `TagSets`, `WordsCount`, `FetchRunes`, `GetChildrenMap` as such programs (`Model/Tagging.lean`), proved to be the sequential methods when alone; `Spec/Tagging.lean` says which cells a call writes and uses; exactly the calls that meet in a cell race, calls that do not meet are as if in any order; false: two words tagged at the same time; without exceptions: `C92_race_exact` |
| C93 | the small-step model of `NewChild` (C37: backing arrays, growth, lock) together with goroutines in `AddTagSet`, which hold a pointer to the node while they work (`Model/TagWhileAdding.lean`); exactly the taggings overtaken by a move of the nodes are lost; false: a word tagged while another one is added; without exceptions: `C93_exact` |
| C94 | what the writer sees of an index that changes between its reads: every piece (tags, each table, each node) as of its own moment (`Model/SaveWhile.lean`), the calls of other goroutines being atomic; the file always loads with the words of the moment its nodes were read; words not tagged between the first and the last read keep their readings, others lose parts or crash but never show a foreign reading; with `Optimize` they do; `C94_exact`: a word is right exactly if its tags, its readings and their combination were there when the tags, the sets and the collections were read |
| C95 | error values with text and `errors.Is` chain built by `fmt.Errorf` (`Model/Errors.lean`: `%w` keeps the chain, `%v` only the text); every call of the index in memory, the error of a save, the error of a load with the texts of the reader as a parameter | case analysis over all calls for recognition; texts of lookups are injective because no encoding of one rune longer than a byte contains an ASCII bracket; kinds differ because no fixed beginning is a prefix of another; negations: `TagSet`, runes that are not characters, missing ids, cut files, missing files |
| C96 | the loops and recursive functions of lookups, additions, words, readings and `AddTagSet` with a count of steps (`Model/Cost.lean`); erasing the count gives the functions of `Model/Index.lean` | induction over the argument with the trie invariant for lookups and words; sizes of the tables bounded by the different readings and sets of readings of the history (`Orig` of C44's capacity proof); lower bound by injecting pairwise different readings into the table that is searched; negation by two histories that differ in a reading of another word; without exceptions: `C96_lookup_exact` |
| C97 | what every command writes to the standard output, as bytes, and whole sessions (`Model/Output.lean`); what is shown, as data (`Spec/Output.lean`) | each kind of text starts with another byte and says where it ends (`Screen.text_split`), then induction over the lines; two concrete dictionaries whose transcripts agree although one session has one line and the other two |
| C98 | `Optimize` and `SaveTo` as in C13/C77; the space a content needs, from lists of its different words, readings and combinations (`Spec/Size.lean`) | one-to-one correspondence between the stored sets and the different readings, and between the collections left by `Optimize` and the combinations of the words (`map_perm_of_match`); last tables are never empty (`TopFull`); then the length of C77 |
| C99 | the copying program, written with the modelled calls (`Spec/Copy.lean`); no new code | the calls it makes are a history (`copyCalls`); the dictionary they build is computed node by node (every node comes after its parent, so numbers agree); that history has room (`copy_room`), so C10's exact description of `TagSets` applies on both sides; for later calls, the two dictionaries differ only in the log of readings they started with (`same_later`); conversely every word of the copy was decoded from a string, so a dictionary that equals its copy has only text (`C99_exact`); without exceptions: `C99_reference` |
| C100 | the walk, written with `GetChildrenMap` (`Spec/Completions.lean`); no new code | induction over the depth: a child's word is one character longer and no word is longer than its number, so the depth is bounded; subtrees of different characters are disjoint; what begins with the word has its next prefix among the children; without exceptions: `C100_exact` |
| C101 | `SaveIndex` and `LoadIndex` of any number of processes, a byte at a time, with emptied, removed and still open files (`Model/Processes.lean`) | readers: an invariant over the schedule says that what was read is the beginning of the old file continued by the new one, and every such splice is shown to be readable; writers: the last process to empty the file has everything it wrote in place, because the others write the same bytes at the same places; without exceptions: `C101_exact` |
| C102 | the merging program, written with the modelled calls (`Spec/Merge.lean`); no new code | the calls it makes continue the history of the one merged into; the dictionary they build is computed node by node, and that history has room (`merge_room`), so C10's exact description of `TagSets` applies; a part, itself and a second merge by showing that every call finds what it would add; the other order by comparing both results with the two dictionaries; without exceptions: `C102_exact` |
| C103 | `WriteTo` and `ReadFrom` of `Set8` and `Set16` with a writer that fails after some bytes, a stream that ends, the receiver and the kind of error (`Model/SetStreams.lean`) | both loops by induction, for elements of one and of two bytes; then a set sent through a stream that breaks anywhere, by composing them; without exceptions: `C103_count16_exact`, `C103_error_exact8`, `C103_error_exact16` |
| C104 | `Update` of any number of processes, call by call and byte by byte: the two checks, download, unpacking as a stream, parsing, saving, with emptied and still open files (`Model/Updates.lean`) | an invariant over the schedule says what every process knows to be on the disk (each file it writes is the beginning of the right one) and which files are complete when nobody writes them; the two witnesses are schedules of two processes, evaluated by the kernel; that an update left to itself ends is by induction on what is left to read and write in each phase, with the invariant that no process unpacks a file onto itself |
| C105 | the loops of `Optimize` with a count of steps (`Model/OptimizeCost.lean`); erasing the count gives `Index.optimize` | stored collections and tables bounded by the attaching calls, storage by the nodes (it grows by at most 15 slots at a time, `2 ^ i` in Go being exclusive or); the invariant of the rebuilding loop (C13) gives both bounds; an unused collection costs at least five bytes (C98); collections stay until `Optimize` and come from a word of the history since then (`Run.combined`) |
| C106 | the maps of children an index holds (`Index.childrenMap`, created by `GetChildrenIDMap`), its slots and tables | an invariant over histories: maps exist for nodes and for ids asked since the last load (`Spec/Memory.lean`); entries of the maps are as many as nodes because each node has one parent; slots and tables from C105 and C98 |
| C107 | `Optimize` one shared access at a time (`Model/OptimizeWhile.lean`), with whole calls of other goroutines in between; a reader may read the number of a combination and the tables at different moments | an invariant by program counter relates the index to the one the calls alone make; calls that attach nothing commute with any renumbering (`exec_paint`), so the plan of `Optimize` stays valid; what a reader sees follows exactly from injectivity of numbers and of what is shown; wrong readings, a crash and lost readings with concrete schedules; without exceptions: `C107_exact` |
| C108 | two histories (`Run`), two documents, limits of an import | found words and counts from C02, C04, C12 by inclusion; readings from the exact list shown (C10_exact), tags being unique by name in the larger dictionary; a limited import makes a beginning of the calls of the whole one; without exceptions: `C108_exact` |
| C109 | `BinaryReadFrom` into a new index byte by byte and then map access by map access (`Model/LoadWhile.lean`), with whole lookups of other goroutines in between | an invariant: before the sections are read no children map has an entry, afterwards the maps are those of a prefix of the accesses, up to empty maps made by lookups; for a saved file each edge is entered once, so the edges at a moment are the final ones to nodes below a number, and paths go to larger numbers; half-read nodes and NUL as counterexamples; without exceptions: `C109_exact` |
| C110 | `Model/FileCost.lean`: the readers and writers of the codec with a count of the rounds of their loops | every round takes at least one byte, so the count is bounded by the bytes taken (`Slow`, by induction on the loops); the last section and the rebuilding of the children take two rounds for sixteen bytes; exact numbers by the round-trip argument of C20 with a count (`RTT`); also `C110_save_exact`, `C110_load_exact` |
| C111 | the loader model over a disk with arbitrary contents, any sequence of updates | from any disk without a current archive by C62; the cases with a current archive by the analysis of the paths of `Update` (`C111_exact`); induction over the sequence for `C111_stuck` and `C111_kept`; fails in general (`not_C111`) |
| C112 | the tables of sets and collections as they are; first use by the log of the reference dictionary | by induction over the history, sets of equal size are stored in the order of first use (`Run.setOrder`); collections are sorted by table and place; uniqueness of sorted lists; also `C112_exact` |
| C113 | all calls and questions of the index against an executable reference implementation on plain lists (`Spec/Reference.lean`) | refinement: each answer from the invariants of the index (`fetch_ref`, `add_ref`, `child_ref`, `word_ref`, `tagID_ref`, `shown_ref`), the list of readings by C112 and its uniqueness; then induction over the program |
| C114 | the parser with a count of steps (`Model/ImportCost.lean`), over the counted index of C96 | the counted parser is the parser (`C114_counted`); simulation of a valid document by its entries with their work; each call bounded by C96 with the sizes of the document, carried to every beginning of the history; lower bound by induction over the history from `C96_tag_grows` |
| C115 | programs as trees that branch on answers, over numbered dictionaries (`Spec/Clients.lean`), on the index and on the reference implementation of C113 | induction over the tree with C113 for each step and the round trip of save and load for handing a file on; merging (C102) and copying (C99) are such programs (`merge_leads`), which gives `C102_exact` and `C99_reference`. No package of /repo has variables that are changed after start, so dictionaries share nothing |
| C116 | what the loader logs (`Model/UpdateLog.lean`): the messages in order, as values | each part of `Update` says true (`Says`), lifted over messages that report nothing; the numbers from the index of the document (C12, C40) before and after save and load; failing cases by witness |
| C117 | what the interactive tool logs, as bytes (`Model/ToolLog.lean`); durations from outside | the logs that give an answer are described apart from the program (`Spec/ToolLog.lean`); each command's log is one of them; the description is functional by the level and first bytes of the first message and by reading back names, numbers and sets; failing cases by witness |
| C118 | the log of a run of the tool (`sessionLog` in `Model/ToolLog.lean`), with the message about a failed reload | whether a message continues the one before is decided by a function of the two texts; every line's messages form a chain for it and neither begin nor end inside one, so splitting the log gives them back (`List.splitBy_flatten`); then C117 line by line; the logs of lines that crash are told apart |
| C119 | the texts of the loader's messages, as bytes (`Model/UpdateText.lean`), with arbitrary texts of errors, times and headers | no beginning of a message is the beginning of another's (a table checked by the kernel), paths differ in the file names alone, numbers end at a space; the three messages about a failed check are told apart by the warning before them, which shows the same error; then C116; panics end the log with a check |
| C120 | what `main` of the tool logs, from the start (`mainLog` in `Model/ToolLog.lean`) | no error message of a command begins like that of a failed load, so the last message tells the status; numbers end at a space; then C118 for the rest; the numbers of the update from C116 |
| C121 | the messages of `Optimize` with their values (`Model/OptimizeTold.lean`) | each loop logs what it does (induction); the stored lists after the call are as many as the different combinations (C98), the tag sets as many as the different readings, the updated items as many as `WordsCount` (C12) |
| C122 | the messages of the parser for each token (`Model/ParserLog.lean`) | the reports of a run are those of the entries of the document (the simulation of C40, once more for the log); what stays of an item during later steps (invariant over the calls); only the end of the dictionary has the path `.dictionary` (induction on trees) |
| C123 | the texts of the messages of the parser and of `Optimize` as bytes (`Model/ImportText.lean`) | numbers are read back by their value, so padding does no harm; forms with the same text are equal or one continues the other with a space; then their node numbers differ, because after the same words a word gets a smaller number than its continuations |
| C124 | the log of an update by all its loggers, in order (`Model/WholeLog.lean`) | the blocks of `compile`, carried through the branches of `Update`; then C116 for what is on the disk, C121, C122 for what the blocks say, C123 for the bytes; a witness for what is not logged (grammemes) |
| C125 | the import with its clock and all messages of the parser (`Model/TimedImport.lean`) | simulation: token by token the import with a clock does what the import without does; an invariant for the time of the next report (ten seconds per report); levels and texts of the messages; C123 for the forms |
| C126 | the texts of the command's usage screen and of package flag (`Model/UsageText`); a reader of screens (`Spec/UsageText`) | the screen read back gives the three options for every name without line ends; acceptance by cases on the relation of C70; defaults by computation of the first argument |
| C127 | a whole run of the interactive tool with failures of the logger and of the line editor, and the deferred `Close` (`Model/ToolRun`) | the invariant of C120 about error messages, extended to the first letter of "readline"; cases on the ending for the deferred call |

## Trusted base

* Lean 4.33.0 kernel; axioms `propext`, `Classical.choice`, `Quot.sound` only (per theorem: see the appendix). No axiom
  of our own, no `sorry`, no `native_decide`, no `bv_decide`. Lean's compiler and the elaborator are not trusted: `vcheck`
  replays every module in the kernel.
* Reading of the Go code (no execution here): that each definition says what the cited lines do.
* `github.com/amarin/binutils v0.6.0` (source not available): `WriteUint8/16/32` write big-endian (the repo's own tests pin
  this by hex strings), `WriteRune` writes the rune as a 4-byte big-endian uint32 (the reader side of the repo reads it with
  `ReadUint32`), `WriteStringZ/ReadStringZ` use a terminating zero byte, `WriteBytes/ReadBytesCount` are verbatim,
  `WriteObject(x)` calls `x.BinaryWriteTo` (pinned by the repo's round-trip test), every `Read*` returns an error when bytes
  run out; `CreateFile` truncates; `Close` reports buffered write errors.
* `github.com/amarin/libxml` (source not available): `ParseXMLFile` feeds the tokens of `encoding/xml` to the parser's
  handlers one by one and stops at the first error. Which token sequence a file has is a parameter (`Env.readable`).
* `compress/bzip2`, `net/http`, `os`: answers of the oracle `Env`. A crash is the death of the process: completed writes
  stay, in order.
* `strconv.ParseInt/ParseUint` with base 0 and `strings.EqualFold` in the interactive tool: parameters (`Lib`), so the
  theorems hold for whatever they return; in C84 and C91 the former two are modelled after their source, and C91 proves what they read against the grammar of the Go language specification. `strconv.Atoi`, `strconv.ParseBool`, `strings.Split`, the `flag` package's
  parsing of boolean flags, UTF-8 encoding and decoding of runes: modelled.
* Go semantics used: 64-bit `int`, conversions truncate, `sort.Sort` uses only `Len`, `Less` and `Swap` and sorts
  lists of numbers (C89 derives the rest), map iteration order is arbitrary, slices alias, a concurrent map access is a fatal error when an
  access by another goroutine falls into a write. In the concurrency models reading a slice header is atomic, in C92 also appending one element (a racy execution may do worse); in C73 and C90 a
  whole `NewChild` is (its inside is C37).

## What is modelled, per file

| file | modelled | not modelled |
|------|----------|--------------|
| internal/index/idx.go | everything: construction, adds, lookups, `Optimize` with its messages (C76, C121) and their texts (C123), save, load, counters | - |
| internal/index/node.go | `Word`, `TagSets`, `AddTagSet`, `Children`, `Item`, `String` | - |
| internal/index/items.go, item_def.go | everything; the lock of `NewChild` in the small-step model | - |
| internal/index/tagset_*.go, variant_*.go | interning, tables, ids, codecs, sorting, texts | `CollectionIDList.Has` (unused) |
| internal/index/letters.go, constants.go | constants | - |
| internal/index/relation.go | the order of `ChildList` | dead code: `ChildList` is never used; its `Sort` returns a send-only channel and leaks a goroutine |
| internal/grammemes | - | dead code |
| pkg/dag | tag names, tags, registry, codecs, texts, `ResolveFilePath` (C81) | `NodeMap.BinaryWriteTo` (panics "implement me", unused) |
| pkg/storage | ids, sets, tables, collections, codecs, aliasing | - |
| pkg/common | everything, with path cleaning and joining (C81) | - |
| pkg/opencorpora/parser.go | the whole token handler, lemma limit, aliasing of tag lists, the messages about forms and elements (C122) with their texts (C123), the speed reports (C85, C125) | - |
| pkg/opencorpora/loader.go | the whole update state machine, load, save, parse, panics recovered in `ParseUpdate`; load, save and updates also of several processes (C101, C104); messages (C116), their texts (C119), the log with the messages of parser and `Optimize` (C124) | texts of errors from the operating system and the network |
| pkg/opencorpora, data types | attributes, word forms, lemmas as far as the parser builds them; `Search`, `String` (C80) | link and restriction types (no code) |
| cmd/opencorpora_test | every command, the loop, exit statuses; replies are data; what is written to the standard output also as bytes (C88, C97), and what is logged about a line (C117) and in a whole run (C118, C120), with failures of the logger and of `readline` at start and end (C127) | decoration of messages by the logger, prompts, timing |
| cmd/opencorpora_update | arguments, exit status, the call of the loader, usage screen | the line of package flag that quotes a wrong argument |

Memory exhaustion is not modelled, except for C68 (number of slots allocated while loading). Wall-clock time appears only as
modification times and server dates. Error texts are reduced to constructors (plus the
payload C53 needs), except in `Model/Errors.lean` (C95).

## Capacity

Ids are 32 bit wide, tag ids 8 bit, set numbers 16 bit. `Fits` states that nothing overflowed and is part of `Run`; what
happens beyond is the subject of C16, C28, C66. `Room h` (on a history) and `DocRoom` (on a document) are sufficient
conditions in terms of the input alone.

## Findings

Each is a theorem with a concrete witness, proved of the unchanged code (names in MANIFEST.json):

* an empty `AddTagSet()` attaches the first tag set ever stored (C10); the 257th tag name gets the id of the first (C16);
* NUL as first character: lookups change after a reload (C18); lookups on a crafted file may not terminate (C22), and `Optimize` of one panics (C76);
* loading into a non-empty index mixes the contents (C25), and so does a failing load (C67); eleven bytes allocate 4 G slots
  (C68); a file announcing no nodes gives a node counter of 2³²-1 (C69); 256 tags save to a file that cannot be loaded (C66);
* set tables: overflow returns ids of other sets (C28), `Find` on an empty collection panics (C29), sets longer than the
  length field are truncated silently (C30), `TableIDs` lists ids shifted by one table (C32), sets keep the caller's slice (C52);
* queries by unknown variant id, and node 0, panic (C34); the tool crashes on some lines (C49), cannot show the last node by
  number, cannot search words that are commands (C63) or tags named by a number (C75), and reads set numbers as octal that it
  shows with leading zeros (C84), and cuts numbers typed to 32 bits (C91);
* two words tagged at the same time: one can end up with the other one's reading, and no call reports an error (C92);
  a word tagged while another goroutine adds a word can lose the reading (C93);
  a word tagged while the index is saved crashes the reader of the file or shows blank readings, and after an `Optimize`
  during the save words show readings of other words (C94);
* errors: the error of `TagSet` is not an `index.Error`; a lookup from a missing id has the same error as a lookup of the word
  "no item: N"; a missing and a damaged index file cannot be told apart with `errors.Is` (C95);
* attaching a reading compares it with every different reading of that size: cost grows with the readings of other words (C96);
* `Optimize` compares each two combinations with the same number of readings, although those it goes through are already different: quadratic work (C105);
* `FetchFromItem` and `FetchItemFromParent` leave an empty map behind for every unknown id they are asked about: a program that passes ids through from outside can be made to use memory for up to 2³² maps without adding a word (C106);
* `Optimize` takes no lock and renumbers the combinations in place before it replaces the tables: meanwhile `TagSets` shows a word with the readings of another, a reader that has just read the number crashes when the tables are replaced, and a reading attached by `AddTagSet` in between is lost, or ends up mixed with those of another word, although success was reported (C107);
* no lookup takes the lock that `BinaryReadFrom` holds: while a file is being loaded `NodesCount` and `Get` already announce nodes whose letters, parents and readings are not yet there, so `Word` and `TagSets` of a node obtained by number are wrong without an error (C109; lookups by letters are safe in this respect);
* a word with line ends can forge output of the interactive tool: one `node` line writes what two lines write for other words (C97);
* without `Optimize` the length of the file depends on the order of the calls; with empty readings even after it (C98);
* a dictionary copied through its own interface loses words that are no text (two unpaired surrogates become one word) and readings `TagSets` does not show; the loss of the latter is seen only when a one-tag reading is attached later (C99);
* a dictionary merged into another through their own interface: a word with only an empty reading gets a reading nobody gave it when the other dictionary attaches its first one-tag reading; a word that starts with NUL, merged into a dictionary that was reloaded, arrives without the NUL, as a word neither knew; a tag that both have with different parents is shown with the parent of the one merged into (C102);
* `Set16.WriteTo` and `Set16.ReadFrom` report one byte too few when the stream breaks inside an element; the error of `WriteTo` wraps `ErrSet8` (and drops the writer's) if the length could not be written, and wraps the writer's error (and drops `ErrSet8`) after that (C103);
* two processes that run `Update` at the same time can both report success and leave an empty dictionary (one empties the text while the other is about to parse it), or, if one was told to recompile, the dictionary of before; the archive then counts as up to date, so that a later update changes nothing (C104);
* after loading, the root is its own child under the character NUL, so a walk over the children from the root never ends (C100);
* the index file is written in place: a process that loads meanwhile can get a mixture of the old and the new dictionary without an error; of two simultaneous updates one can die and leave a file with a gap that still loads, or fail and remove the file the other has just reported as saved, or both succeed and leave a mixture (C101);
* the text of a small map of children changes from run to run, readings with commas in tag names print alike (C79); what is
  shown for a word with an empty reading depends on the order of unrelated calls (C78);
* tags and texts of a form panic on a nil category, although one of the calls tests for nil (C80); the data of a domain named
  `..` is outside the data directory, and resolving `/` fails where other directories are accepted (C81);
* answers alias the dictionary: the caller's assignments to tag lists, child maps, stored sets change it (C74);
* concurrency: `NewChild` stores fields after releasing the lock (C37), failing lookups write to a map (C39), concurrent
  additions lose words (C73);
* import: an element name with a dot makes the parser dereference nil (C42), a form without tags gets a foreign reading (C44),
  a comment inside a grammeme name cuts the name (C83);
* update: a broken download counts as up to date (C46, C61), the HTTP status is ignored (C59), a forced recompile may find
  no unpacked file (C48), errors of `Close` are dropped (C57), the old index is destroyed before the new one is written
  (C58), a custom data directory is never made (C60), the check panics if the archive cannot be examined (C55), a clock
  behind the server's repeats the download for ever (C71), exit status 0 without an index (C70);
  after an error page from the server the next run reports success and leaves a dictionary without words (C86);
* a failed unpacking cannot be repaired by updating: the archive counts as current and is never unpacked again, with or without
  force (C111); removing it by hand always helps (`C111_remove`).
* the update's log says "compiled index saved" for an index cut short (the error of `Close` is ignored), "lemmata updated" when
  nothing was downloaded, "downloaded" for an error page, "lemmata up to date" after a broken download, and nothing at all
  before the check panics (C116).
* the interactive tool defers closing the line editor, but leaves with `os.Exit`: it is closed only when the tool crashes (C127).
* the interactive tool answers `var` and `node` without an argument with the error of `set`, and heads the message about one
  table of tag sets `set.tables` as that about all of them (C117).
* the interactive tool passes a format (`load index: %v`) to `Error`, which takes none: with a logger that joins its arguments the
  message shows `%v` (main.go:337, 392, 400). The theorems about it (C118, C120) hold whatever follows `load index: `.
* with warnings and errors alone, the loader's log of an update that did everything and of one that did nothing are both empty
  (C119).

## Testing the theorems

`seeded/LOG.jsonl` records every wrong program tried against the theorems: the definition edited, the edit, the claim it
breaks, what failed, and what was tightened when nothing did.

## Appendix: axioms per theorem

Output of `tools/axioms.py` (`#print axioms` on every theorem of MANIFEST.json; all names are in `Verif`).

**none** (1 theorems): `not_C103_error`

**propext** (12 theorems): `C07_empty`, `not_C103_count16`, `C110_tight`, `C35_roundtrip`, `C35_injective`, `not_C37`, `C46_partial`, `C50_empty`, `C55_sound`, `C59_partial`, `C60_partial`, `not_C60`

**Quot.sound, propext** (55 theorems): `C101_exact`, `C101_alone`, `C103_write8`, `C103_write16`, `C103_read8`, `C103_same8`, `C105_counted`, `C11`, `C110_counted`, `C110_load`, `C116_load`, `C116_required`, `C116_save`, `C16_partial`, `not_C16`, `C19_any_file`, `C20_any_file`, `C22_load_partial`, `C22_readings_exact`, `C25_exact`, `C27_index_total`, `not_C29`, `C30_set8`, `C30_set16`, `C30_truncated8`, `not_C30_long8`, `not_C30_long16`, `C30_exact8`, `C30_exact16`, `C31_empty`, `not_C32`, `C33_table`, `C34_variants_exact`, `not_C34_variants`, `C34_tagSet`, `C35_marshal`, `C35_unmarshal`, `C36`, `C36_step`, `C36_code`, `C46_exact`, `sharing_overwrites`, `C55_partial`, `C55_exact`, `C59_exact`, `C67_outcome`, `C69_exact`, `C80_search`, `C80_tags`, `C85_reports`, `C87_checks`, `C89_insertion`, `C96_add`, `C96_readings`, `C96_refused`

**Classical.choice, Quot.sound, propext** (548 theorems): `C01_runes`, `C01_string`, `C02_runes`, `C02_string`, `C02_exact`, `not_C02`, `C03_fetch`, `C03_fetchString`, `C03_fetchValid`, `C03_add`, `C03_exact`, `C03_add_exact`, `not_C03`, `C04`, `C04_order`, `C05_injective`, `C05_range`, `C05_stable`, `C05_word_stable`, `C05_exact`, `C05_range_exact`, `not_C05`, `C06`, `C06_string`, `C07_unknown`, `C08`, `C09`, `C09_logged`, `C10_partial`, `C10_shown`, `C10_hidden`, `not_C10_foreign`, `not_C10_hidden`, `not_C10_isolation`, `C10_exact`, `C100_partial`, `C100_ordered`, `C100_root`, `C100_exact`, `not_C100`, `C101_partial`, `C101_before`, `C101_first`, `C101_last`, `C101_all`, `not_C101_mixed`, `not_C101_died`, `not_C101_removed`, `not_C101_different`, `C102_partial`, `C102_part`, `C102_self`, `C102_twice`, `C102_order`, `mergeRoom_of`, `not_C102_empty`, `not_C102_nul`, `not_C102_parent`, `C102_exact`, `C103_read16`, `C103_sent8`, `C103_sent16`, `C103_count16_exact`, `C103_error_exact8`, `C103_error_exact16`, `C104_partial`, `C104_serial`, `not_C104_empty`, `not_C104_forced`, `C104_compiled`, `C104_faults`, `C104_same`, `C104_ends`, `C104_each`, `C105_partial`, `C105_grows`, `C105_words`, `C105_left`, `C105_exact`, `C105_when`, `C105_again`, `C106_partial`, `C106_stray`, `C106_maps`, `C106_loaded`, `C106_grows`, `not_C106`, `C107_words`, `C107_end`, `C107_ends`, `C107_partial`, `C107_exact`, `C107_idle`, `not_C107`, `not_C107_crash`, `not_C107_lost`, `not_C107_mixed`, `C108_words`, `C108_exact`, `C108_partial`, `C108_import_partial`, `C108_limit_partial`, `not_C108`, `C109_partial`, `C109_exact`, `C109_grows`, `C109_end`, `C109_ends`, `not_C109`, `not_C109_nul`, `C110_save`, `C110_save_exact`, `C110_load_exact`, `C111_partial`, `C111_remove`, `C111_exact`, `C111_stuck`, `C111_kept`, `not_C111`, `C112`, `C112_exact`, `C112_unique`, `C112_kept`, `C113`, `C113_one`, `C113_after`, `C113_same`, `C114`, `C114_counted`, `C114_tokens`, `C114_grows`, `C114_least`, `C115`, `C115_start`, `C115_apart`, `C116_partial`, `C116_numbers`, `not_C116_saved`, `not_C116_updated`, `not_C116_downloaded`, `not_C116_upToDate`, `not_C116_panic`, `C116_checks`, `C116_saved_exact`, `C116_updated_exact`, `C116_panic_exact`, `C117_says`, `C117_tells_partial`, `C117_answers_partial`, `C117_error`, `C117_names_partial`, `C117_notFound`, `not_C117_table`, `not_C117_answers`, `C117_reason`, `C117_set`, `C117_var`, `C117_node`, `C118_answers_partial`, `C118_replies`, `not_C118_crash`, `C119`, `C119_lines`, `C119_load`, `not_C119_quiet`, `C119_text`, `C119_reason`, `C12`, `C120_partial`, `C120_status`, `C120_numbers`, `C120_pipeline`, `C121`, `C121_numbers`, `C121_same`, `C121_twice`, `C122`, `C122_items`, `C122_closed`, `C123`, `C123_forms`, `C123_any`, `C123_line`, `C123_optimize`, `not_C123_line`, `C123_levels`, `C124`, `C124_order`, `C124_content`, `C124_record`, `not_C124_tags`, `C125`, `C125_reports`, `C125_due`, `C125_bytes`, `C125_forms`, `not_C125_backwards`, `C125_lemmas`, `C125_document`, `C126`, `C126_shown`, `C126_name`, `not_C126_newline`, `options_listed`, `C127_status_partial`, `C127_closed_exact`, `C127_healthy`, `not_C127`, `C13`, `C13_lookups`, `C14`, `C15_inverse`, `C15_stable`, `C15_parent`, `C15_injective`, `C15_known`, `not_C16_reachable`, `C16_exact`, `C17`, `C17_further`, `C18_partial`, `C18_exact`, `not_C18`, `C19`, `C20`, `C21`, `C22_lookup_partial`, `C22_lookup_string_partial`, `not_C22`, `C22_word_exact`, `C22_lookup_exact`, `C23`, `C23_further`, `C24`, `C24_kept`, `C24_idempotent`, `C25_partial`, `not_C25`, `C26_id16`, `C26_id32`, `C26_injective`, `C27_table8`, `C27_table16`, `C27_collection8`, `C27_collection16`, `not_C28_table8`, `not_C28_table16`, `C28_partial`, `C28_exact8`, `C28_exact16`, `C29_partial`, `C29_exact8`, `C29_exact16`, `C30_truncated16`, `C31_interns`, `C31_size`, `C32_partial`, `C32_exact`, `C33_interns`, `C33_zero`, `C33_knownID`, `C33_following`, `C34_partial`, `not_C34`, `C37_partial`, `C37_keeps_partial`, `C37_contents_partial`, `C37_in_place_partial`, `C37_room_partial`, `C37_exact`, `C37_exact_id`, `C38`, `C39_partial`, `not_C39`, `C39_exact`, `C39_answers_partial`, `C40`, `C41_unknown`, `C41_attribute`, `C41_form`, `C42_partial`, `not_C42`, `C42_exact`, `C43`, `C43_unlimited`, `upToLemma_prefix`, `C44_partial`, `not_C44`, `not_C44_nul`, `room_runs`, `doc_runs`, `C44_exact`, `C45`, `C45_up_to_date`, `C45_check_failed`, `not_C46`, `C47`, `C48_partial`, `not_C48`, `C48_exact`, `C49_exact`, `C49_partial`, `not_C49`, `C49_node_partial`, `not_C49_last`, `C50_decode_encode`, `C50_encode_decode`, `C50_injective`, `C50_any`, `C51`, `C51_any`, `C52_partial`, `not_C52`, `C52_sorts`, `C52_index`, `C52_exact`, `C53`, `C53_exact`, `not_C53`, `C54`, `C54_unknown`, `C54_unknown_lookup`, `not_C55`, `not_C55_update`, `C56_partial`, `not_C56`, `C56_exact`, `C57_partial`, `C57_succeeds`, `not_C57`, `C57_exact`, `C58_partial`, `not_C58`, `C58_exact`, `not_C59`, `C60_exact`, `C61_partial`, `not_C61`, `C61_exact`, `C62_partial`, `C62_exact`, `C63_partial`, `not_C63`, `C63_exact`, `C64`, `C64_any_file`, `C64_rewritten`, `C64_injective`, `C65`, `C65_markers`, `C66_partial`, `not_C66`, `load_fails_256`, `C66_tags_exact`, `C67_partial`, `C67_kept`, `not_C67`, `not_C67_lookup`, `C67_exact`, `C68_partial`, `C68_bound`, `not_C68`, `C68_excess`, `C69_partial`, `not_C69`, `C70_args`, `C70_partial`, `not_C70_changed`, `not_C70_late`, `not_C70_unforced`, `C70_exact`, `C71_partial`, `C71_forced`, `not_C71`, `C71_exact`, `C72`, `C72_reload`, `C72_exit`, `C72_ends`, `C73_partial`, `C73_known_partial`, `C73_serial_partial`, `not_C73_crash`, `not_C73_lost`, `not_C73_wiped`, `C73_exact`, `C74_partial`, `C74_answer`, `not_C74_tags`, `not_C74_children`, `not_C74_sets`, `not_C74_variants`, `not_C74_registered`, `C75_tables`, `C75_readings_partial`, `C75_tags_partial`, `not_C75_number`, `not_C75_case`, `C75_readings_exact`, `C75_tag_exact`, `C76_partial`, `not_C76`, `not_C76_halfway`, `C76_exact`, `C76_numbered`, `C77`, `C77_load`, `C77_size`, `C77_lookup`, `C77_growth`, `C78_partial`, `C78_import_partial`, `C78_several`, `C78_twice_partial`, `not_C78`, `C78_exact`, `C78_first`, `C79_stored`, `C79_reading_partial`, `C79_children`, `C79_map_partial`, `C79_nodeMap_partial`, `not_C79_map`, `not_C79_reading`, `C79_map_exact`, `C79_nodeMap_exact`, `C80_tag`, `C80_text_partial`, `not_C80`, `not_C80_text`, `C80_tags_exact`, `C80_lemma_exact`, `C80_text_exact`, `C80_grammeme_partial`, `C80_grammemes_exact`, `not_C80_grammeme`, `C81_loader`, `C81_distinct`, `C81_domain_partial`, `C81_resolve`, `not_C81_domain`, `not_C81_root`, `C81_domain_exact`, `C81_domain_same`, `C82_partial`, `C82_exact`, `C83_partial`, `C83_answers_partial`, `not_C83`, `C83_exact`, `C83_exact_same`, `C84_partial`, `C84_padded`, `C84_node_partial`, `not_C84`, `C84_exact`, `C84_printed`, `C84_printed_var`, `C85`, `C86_partial`, `C86_serves_partial`, `not_C86`, `C86_exact`, `C87`, `C88`, `not_C88_names`, `C89`, `C89_in_place`, `C89_cells`, `C89_no_loss`, `C90_partial`, `C90_moment_partial`, `C90_known_partial`, `C90_one_writer_partial`, `C90_exact`, `C90_serial_partial`, `not_C90_crash`, `not_C90_wiped`, `C90_race_exact`, `C90_safe_partial`, `C91_unambiguous`, `C91_set_exact`, `C91_set_partial`, `C91_var`, `C91_node_exact`, `C91_tag_exact`, `not_C91`, `C92_race_exact`, `C92_ends`, `C92_safe_partial`, `C92_quiet_partial`, `C92_first`, `C92_same_word`, `C92_new_tag`, `not_C92`, `C93_exact`, `C93_partial`, `C93_room_partial`, `not_C93`, `C94_words`, `C94_partial`, `C94_untagged_partial`, `C94_sound`, `not_C94`, `not_C94_blank`, `not_C94_optimize`, `C94_exact`, `C95_is_partial`, `C95_lookup`, `C95_kinds`, `C95_save`, `C95_save_fails`, `C95_load`, `C95_foreign`, `not_C95_tagSet`, `not_C95_runes`, `not_C95_from`, `not_C95_cut`, `not_C95_missing`, `C95_empty`, `C95_inside`, `C95_section`, `C95_save_tags`, `C96_counted`, `C96_lookup`, `C96_lookup_from`, `C96_lookup_exact`, `C96_word`, `C96_tag_partial`, `C96_tag_grows`, `not_C96`, `C97_partial`, `not_C97`, `readable_of`, `C97_same`, `C98`, `C98_inventory`, `C98_optimize`, `C98_content_partial`, `C98_least`, `not_C98`, `not_C98_unoptimized`, `C99_partial`, `C99_later`, `not_C99_text`, `not_C99_later`, `C99_exact`, `C99_reference`
