{"id": "C01", "title": "Added words are found again", "statement": "After AddString(w)/AddRunes(w) succeeded, FetchString(w)/FetchRunes(w) succeeds in every later state and returns the very same node (same node id), whatever other calls happened in between.", "quantifier": "every history of API calls before and after the add, saving and loading included; every non-empty word", "why_tests_cant": "the history in between is unbounded; a test fixes one history", "anchors": ["internal/index/idx.go: AddToNode, FetchFromItem, AddString, FetchString"]}
{"id": "C02", "title": "Lookup succeeds exactly on prefixes of what was added", "statement": "FetchRunes(q) succeeds if and only if q is a non-empty prefix of some rune sequence that was added (a sequence added below a node counts as the node's word followed by the sequence); otherwise it returns an error.", "quantifier": "every history of API calls on a new index, saving and loading included; every query q — in an index that was loaded from a file, every query that does not begin with NUL (that one is C18)", "why_tests_cant": "soundness ('nothing else is found') ranges over all queries and all histories", "anchors": ["internal/index/idx.go: FetchFromItem, AddToNode, GetChildrenIDMap"]}
{"id": "C03", "title": "Word() spells the way to the node", "statement": "The node returned by adding or fetching a rune sequence reports Word() equal to the UTF-8 encoding of exactly that sequence; for a valid UTF-8 string w this is w itself, for an invalid one it is w with undecodable bytes replaced by U+FFFD.", "quantifier": "every history, saving and loading included, every node, every byte string — in an index that was loaded from a file, every string that does not begin with NUL (C18)", "why_tests_cant": "all strings, all depths; the recursion through parents is unbounded", "anchors": ["internal/index/node.go: Word", "internal/index/idx.go: AddString"]}
{"id": "C04", "title": "NodesCount counts distinct prefixes", "statement": "NodesCount() equals the number of distinct non-empty prefixes of the added sequences; it therefore does not depend on the order or repetition of adds.", "quantifier": "every history of adds, every permutation of it", "why_tests_cant": "requires all orders and all word lists", "anchors": ["internal/index/idx.go: NodesCount", "internal/index/items.go: NewChild, NextID"]}
{"id": "C05", "title": "Node identity is faithful and stable", "statement": "Two sequences resolve to the same node only if they are equal, every node id between 1 and NodesCount() is reached by exactly one sequence, and an id once assigned to a sequence never changes.", "quantifier": "every history, saving and loading included, every pair of sequences; that no two sequences share a node and no lookup gives another id: in an index that was loaded from a file, sequences that do not begin with NUL (C18)", "why_tests_cant": "injectivity over all pairs and stability over all continuations", "anchors": ["internal/index/idx.go: AddToNode, Get, GetItem"]}
{"id": "C06", "title": "Adding is idempotent", "statement": "Adding a sequence that is already a prefix of an added one returns its existing node and changes no query result, NodesCount or WordsCount.", "quantifier": "every history, every sequence", "why_tests_cant": "all states", "anchors": ["internal/index/idx.go: AddToNode"]}
{"id": "C07", "title": "Rejected adds change nothing", "statement": "AddString(\"\"), AddRunes(empty) and AddToNode with an unknown parent return an error and leave the whole index unchanged.", "quantifier": "every index state, every unknown parent id, every sequence", "why_tests_cant": "all states and all ids", "anchors": ["internal/index/idx.go: AddString, AddToNode"]}
{"id": "C08", "title": "AddToNode equals adding the concatenation", "statement": "AddToNode(n, rs) below an existing node n has the same effect and result as AddRunes(word(n) ++ rs).", "quantifier": "every history, saving and loading included, every node, every non-empty sequence", "why_tests_cant": "all states", "anchors": ["internal/index/idx.go: AddToNode"]}
{"id": "C09", "title": "TagSets returns exactly what was attached", "statement": "TagSets() of a node lists, each once, exactly the distinct readings (multisets of tag names) successfully attached to it by AddTagSet with at least one tag; each listed reading carries the registered tags (name and parent) and no reading attached to another node appears.", "quantifier": "every history of TagID/Add/AddTagSet/Fetch/Optimize/save+load calls within the id capacity, every node without an empty reading (an empty AddTagSet is C10)", "why_tests_cant": "interning of tag sets and of collections of tag sets is history dependent", "anchors": ["internal/index/node.go: TagSets, AddTagSet", "internal/index/tagset_index.go: Index, Get", "internal/index/variant_idx.go: Index, Get"]}
{"id": "C10", "title": "An empty AddTagSet() adds no foreign reading", "statement": "AddTagSet() with no tags must not make TagSets() report tags nobody attached, nor hide attached readings.", "quantifier": "every history containing AddTagSet with no tags", "why_tests_cant": "needs the interaction of the empty-set id with a particular interning history", "anchors": ["internal/index/node.go: AddTagSet, TagSets", "internal/index/tagset_index.go: Index"]}
{"id": "C100", "title": "Walking the children of a word finds everything that begins with it", "statement": "Start at a word that is found, or at the root, and visit its children, their children and so on: the walk ends, and it has visited exactly the node itself and the nodes of all words that begin with the word, each of them once, in whatever order the maps of children are gone through. If the children are taken in the order of their characters, the words come in dictionary order. From the root the walk visits NodesCount nodes besides the root, and WordsCount of them have readings.", "quantifier": "all indexes reached by any history of calls, all starting words, all orders in which the maps of children are visited, all orders of characters", "why_tests_cant": "That a walk over maps of children neither misses a word, nor meets one twice, nor runs in a circle is a statement about the shape of every reachable tree.", "anchors": ["internal/index/idx.go: Index.GetChildrenMap, FetchRunes, NodesCount, WordsCount", "internal/index/node.go: Node.Children, TagSets", "internal/index/children_map.go"]}
{"id": "C101", "title": "Several processes can use one data directory", "statement": "A program that loads the index while an update saves it gets an error, the whole old dictionary or the whole new one, never a mixture. Updates that run at the same time and save the same dictionary leave a file with exactly that dictionary, also if some of them die on the way; an update that reports success has left a loadable index.", "quantifier": "all numbers of processes that save and load, all interleavings of their file operations down to single bytes, all points at which calls fail or processes die, all old and new contents", "why_tests_cant": "The outcome depends on which bytes are read or written before and after the file is emptied by another process; the number of interleavings is unbounded and a test sees only a few.", "anchors": ["pkg/opencorpora/loader.go: Loader.SaveIndex, LoadIndex, Update", "internal/index/idx.go: Index.BinaryWriteTo, BinaryReadFrom"]}
{"id": "C102", "title": "A dictionary can be merged into another through their own interface", "statement": "Register the tags of dictionary B in dictionary A, go through B by node number, add the word of each node to A and attach each reading TagSets shows: no call fails, and A then knows exactly the words known to A or B, shows for each exactly the readings of both, each once, and keeps the node numbers and tags it had, followed by the tags B alone had. NodesCount and WordsCount grow by what B alone had. Merging what is there already, or the same dictionary twice, or a dictionary into itself, changes no answer; merging A into B instead gives the same words, readings, tag names and counts.", "quantifier": "all pairs of dictionaries, each built by any history of calls including Optimize and reload, with room for both, whose words are text and whose readings are not empty", "why_tests_cant": "it depends on both histories: on the tags being numbered differently in the two, on words that are prefixes of each other, on readings with the same tags in another order and on intermediate collections of readings that are shared", "anchors": ["internal/index/idx.go: Index.AddString, AddTagSet, TagID, Word, FetchRunes, NodesCount, WordsCount, Tags", "internal/index/node.go: TagSets", "internal/index/items.go: Items"]}
{"id": "C103", "title": "What WriteTo and ReadFrom of a set report is true, also on a stream that fails", "statement": "When a set is written to a writer that fails after any number of bytes, the writer has got exactly the beginning of the encoding, WriteTo returns an error exactly if something is missing, and the count it returns is the number of bytes the writer got. When a set is read from any stream, ReadFrom returns an error exactly if the stream ends before the announced elements, the elements that are there are in the receiver at their places with zeros after them, the count is the number of bytes taken, and a stream without a length leaves the receiver alone. The error can be recognised as that of the stream.", "quantifier": "all sets, all streams of bytes, all points at which the writer or the stream fails, all previous contents of the receiver", "why_tests_cant": "the fault can be after every byte of every set; the unit tests use buffers that never fail", "anchors": ["pkg/storage/set8.go: Set8.WriteTo, Set8.ReadFrom", "pkg/storage/set16.go: Set16.WriteTo, Set16.ReadFrom", "internal/index/tagset_def.go: TagSet.ReadFrom"]}
{"id": "C104", "title": "Updates of several processes at the same time leave the server's dictionary", "statement": "Several processes run Update with one data directory, with or without the order to recompile. If none of their calls fails, none of them reports an error, and once one has saved an index and none is saving it, the index file is complete and serves exactly the dictionary the server offers. (True if no process ever writes a file that another has open and none that was told to recompile begins while another is at work, in particular if they run one after another. Otherwise two updates that both report success can leave an empty or an old dictionary, and the archive then counts as up to date.)", "quantifier": "any number of processes, every order of their file operations down to single bytes, every choice of who is told to recompile, all files there before, every archive of a document of the format", "why_tests_cant": "the outcome depends on how the file operations of independent processes interleave; a test sees a handful of the orders and cannot force the bad ones", "anchors": ["pkg/opencorpora/loader.go: Loader.Update, Loader.DownloadUpdate, Loader.IsUpdateRequired, Loader.UnpackUpdate, Loader.ParseUpdate, Loader.SaveIndex"]}
{"id": "C105", "title": "What Optimize costs, and when it has anything to do", "statement": "Optimize is work in proportion to the content of the dictionary: its words and beginnings of words, its readings and combinations of readings, and the calls that attached a reading. It changes what SaveTo would write exactly if some word once had a combination of readings that no word has now, and then makes the file shorter; called again, it is work in proportion to the words and the combinations.", "quantifier": "all histories of calls of any length, with all words, tags and readings", "why_tests_cant": "a bound on the work is about all sizes at once; whether a combination is left behind depends on the whole history of calls, not on the content", "anchors": ["internal/index/idx.go: Index.Optimize", "internal/index/variant_idx.go: VariantsIndex.Index, KnownID", "internal/index/tagset_index.go: TagSetIndex.TableIDs", "internal/index/items.go: Items"]}
{"id": "C106", "title": "Asking a dictionary does not make it grow", "statement": "However often a dictionary is asked, and for whatever, it holds in memory no more than its content needs: storage for each word or beginning of a word, for its tags, its readings and the combinations of readings that words have had (after Optimize, that words have). Lookups leave nothing behind that adds up.", "quantifier": "all histories of calls of any length: additions, lookups from the root and from any id, tagging, Optimize, saving and loading", "why_tests_cant": "Memory that is never released shows only after very many calls; that it is bounded by the content for every history of calls, and for which ids asked it is not, is a statement about all histories.", "anchors": ["internal/index/idx.go: Index.GetChildrenIDMap, FetchFromItem, FetchItemFromParent, AddToNode, rebuildChildrenIndex", "internal/index/items.go: Items.NewChild, extend", "internal/index/variant_idx.go: VariantsIndex.Index", "internal/index/tagset_index.go: TagSetIndex.Index"]}
{"id": "C107", "title": "A dictionary can be used while Optimize runs", "statement": "Optimize takes its time, and other goroutines may use the dictionary meanwhile. At every moment lookups, additions of words and TagSets answer as if Optimize had not been called, or as if it had finished; it does not panic, it ends, and when it has returned the dictionary is as if the other calls and Optimize had been made one after the other, with no reading lost.", "quantifier": "all dictionaries, all interleavings of the accesses Optimize makes to shared memory with calls of other goroutines, all words asked about and all moments of reading", "why_tests_cant": "what a reader sees depends on which of the many assignments of Optimize fall between its two reads; a test runs one schedule, and on small dictionaries almost always one where nothing is seen", "anchors": ["internal/index/idx.go: Index.Optimize", "internal/index/node.go: Node.TagSets, Node.AddTagSet", "internal/index/variant_idx.go: VariantsIndex.Get, KnownID", "internal/index/items.go: Items.NewChild"]}
{"id": "C108", "title": "A dictionary that contains another answers everything the other answers", "statement": "If everything that was registered, added and attached in one dictionary was also registered, added and attached in another - in any order, among other things -, then whatever the first finds the second finds, spelled the same, with every continuation and every reading; it counts at least as many nodes and words, knows every tag; and for a word it does not know it names at least as long a known beginning. So a later edition of a document that drops nothing loses no answer, and an import stopped by SetMaxLemmas knows a part of what the whole import knows, under the same node numbers.", "quantifier": "every pair of histories of calls and every pair of documents of which one contains the other, every word, every limit", "why_tests_cant": "Node numbers, tag ids, set tables and combinations of the two dictionaries have nothing in common; that no answer is lost has to hold for every way of adding more, in every order.", "anchors": ["internal/index/idx.go: AddRunes, AddString, AddToNode, TagID, FetchRunes, NodesCount, WordsCount", "internal/index/node.go: AddTagSet, TagSets, Children", "pkg/opencorpora/parser.go: Parser, SetMaxLemmas", "pkg/opencorpora/loader.go: Update"]}
{"id": "C109", "title": "A dictionary can be asked while it is still being loaded", "statement": "While BinaryReadFrom fills a new index, other goroutines look words up in it. At every moment a word looked up by its letters is either not found, or found with the node number, text, readings and children the loaded dictionary gives it; a word that has been found stays found; which words are found depends only on how far the load has come. The load ends, and then every answer is that of the file loaded alone: the lookups made meanwhile leave no trace.", "quantifier": "all dictionaries built by any history of calls and saved; all interleavings of the steps of the load with lookups; all words not starting with NUL", "why_tests_cant": "a lookup may come between any two bytes of the file and any two map accesses, and itself creates maps that the load then finds; tests see the index before or after", "anchors": ["internal/index/idx.go: Index.BinaryReadFrom, rebuildChildrenIndex, GetChildrenIDMap, FetchFromItem, FetchItemFromParent", "internal/index/items.go: Items.BinaryReadFrom", "internal/index/node.go: TagSets, Word"]}
{"id": "C11", "title": "AddTagSet with an unknown tag changes nothing", "statement": "If any given tag name is not registered, AddTagSet returns an error and leaves the whole index unchanged.", "quantifier": "every index state, node and list of names", "why_tests_cant": "all positions of the unknown name, all states", "anchors": ["internal/index/node.go: AddTagSet"]}
{"id": "C110", "title": "Saving and loading take work in proportion to the file", "statement": "Whatever is in a file, loading it ends after at most one step for each of its bytes, and one more if it fails; a file that announces billions of entries and does not have them costs no steps for them. Saving takes at most one step for each byte it writes, and one more if it fails. For a dictionary the numbers are exact: saving takes one step for each entry (tag, reading with its tags, combination with its readings, node), loading the file another one for each node and twelve for the names of the sections.", "quantifier": "every byte sequence and every receiver for loading; every state of an index for saving; a step is one round of a loop or one byte asked for by ReadStringZ", "why_tests_cant": "A bound for all files includes damaged and hostile ones, whose length fields are arbitrary; a test loads some files.", "anchors": ["internal/index/idx.go: BinaryReadFrom, BinaryWriteTo, rebuildChildrenIndex", "internal/index/items.go: BinaryReadFrom, BinaryWriteTo", "internal/index/tagset_index.go: BinaryReadFrom, BinaryWriteTo", "internal/index/tagset_table.go: BinaryReadFrom, BinaryWriteTo", "internal/index/tagset_def.go: BinaryReadFrom, BinaryWriteTo", "internal/index/variant_idx.go: BinaryReadFrom, BinaryWriteTo", "internal/index/variant_table.go: BinaryReadFrom, BinaryWriteTo", "internal/index/variant_def.go: BinaryReadFrom, BinaryWriteTo", "pkg/dag/idx.go: BinaryReadFrom, BinaryWriteTo"]}
{"id": "C111", "title": "A data directory that failures spoilt is put right by updating", "statement": "Once nothing fails any more and the server offers a dictionary, an update makes that dictionary available: afterwards the index can be loaded and answers exactly what the published dictionary says, whatever interrupted updates, full disks, error pages or earlier versions had left in the data directory; and further updates do not undo it.", "quantifier": "all contents of the data directory; all published dictionaries within capacity; all sequences of updates, forced or not", "why_tests_cant": "what an earlier failure leaves behind is arbitrary, and whether some later sequence of updates repairs it is a statement about all sequences", "anchors": ["pkg/opencorpora/loader.go: Loader.Update, IsUpdateRequired, DownloadUpdate, UnpackUpdate, ParseUpdate, LoadIndex"]}
{"id": "C112", "title": "Readings are shown in a fixed order", "statement": "TagSets lists the readings of a word with fewer tags before those with more; readings with the same number of tags come in the order in which their combinations of tags were first attached to any word of the dictionary; the tags of a reading come in the order in which they were registered. Content and this order determine the answer completely, and whatever is called later the readings already shown keep their order: later ones are only put in between.", "quantifier": "all histories of calls within capacity, including Optimize, saving and loading; all words without an empty reading (what is shown for the others, C10, is arranged in the same way unless it is empty throughout)", "why_tests_cant": "the place of a reading depends on when its combination was first used for any word in the whole history, and it must survive every later call", "anchors": ["internal/index/node.go: TagSets", "internal/index/idx.go: AddTagSet, TagID", "internal/index/tagset_index.go: TagSetIndex.Index", "internal/index/variant_def.go: TagSetIDCollection.Add"]}
{"id": "C113", "title": "Every program gets the answers of a plain list of words", "statement": "Run any program of calls and questions (adding, looking up, tagging, Get, Word, TagSets, children, tags, counts, Optimize, saving and loading, failing calls included) on a new index, and on a reference implementation that keeps a list of words, a list of tags and a log of attached readings and searches these lists. Both give the same answers, value for value: node numbers, tag numbers, texts, errors and the lists of readings in their order. Two indexes that stand for the same words, tags and readings, however they were built, cannot be told apart by any program.", "quantifier": "all programs of any length within capacity, with any arguments, including unknown nodes, unknown tags, empty words, empty readings and words with NUL", "why_tests_cant": "equality with a reference implementation has to hold after every history, for every argument; tests compare a few", "anchors": ["internal/index/idx.go: Index.AddString, AddRunes, AddToNode, FetchString, FetchRunes, FetchFromItem, FetchItemFromParent, Get, TagID, GetChildrenMap, Children, Tags, NodesCount, WordsCount, Optimize, BinaryWriteTo, BinaryReadFrom", "internal/index/node.go: Node.AddTagSet, TagSets, Word"]}
{"id": "C114", "title": "What an import costs", "statement": "Importing a document of the format takes a bounded amount of work for each tag, attribute and text of the document, a search through the declared grammemes for each grammeme and each tag of a form, and for each form its characters and one search through the different tag lists and the different sets of tag lists that occur. Nothing is multiplied by the number of words, lemmas or forms. The dependence on the number of different tag lists is real: any two of the same size are compared with each other at least once.", "quantifier": "all documents of the format with declared tags and within capacity, of any size; the bound on the parser's own work holds for all token streams and from all states", "why_tests_cant": "a time measured on some dictionary does not bound the time on another; a bound in the sizes of the document needs the invariant that every table searched holds no duplicates, at every point of the import", "anchors": ["pkg/opencorpora/parser.go: Parser.ParseUpdate, processStart and processEnd functions", "pkg/opencorpora/xmlutils.go: getAttr", "pkg/dag/idx.go: Idx.TagID", "internal/index/idx.go: Index.AddString, AddTagSet"]}
{"id": "C115", "title": "Programs that use several dictionaries and decide by the answers", "statement": "A program that uses any number of dictionaries, makes new ones, chooses each call by the answers it got before, and saves a dictionary and loads the file as another one, gets exactly the results it would get with plain lists of words, tags and attached readings, as long as each dictionary stays within capacity. Dictionaries it does not use are not changed and have no influence on it, whatever they hold. So the outcome of copying or merging a dictionary is known without exception, also with empty readings, words starting with NUL and words that are no text.", "quantifier": "all terminating programs over any number of dictionaries, all histories behind these dictionaries, all answers", "why_tests_cant": "the next call may depend on everything answered before, so the sequences of calls cannot be listed in advance; equality must hold at each step of every possible program", "anchors": ["internal/index/idx.go: Index, New, AddString, AddTagSet, FetchRunes, BinaryWriteTo, BinaryReadFrom", "internal/index/node.go: Word, TagSets"]}
{"id": "C116", "title": "What an update logs is true", "statement": "The messages Update logs tell what happened: the last one is an error message exactly if Update returns an error; together they say which steps were taken, in which order and with which success, and a file no message speaks of was not touched; \"lemmata up to date\" means that the archive is what the server offers, \"downloaded\" that a published archive is stored, \"lemmata updated\" that the dictionary on the disk is newly downloaded, \"compiled index saved\" that the index of the whole dictionary can now be loaded; the numbers of words and nodes are those of the dictionary, and of the index loaded then. LoadIndex logs that the index was loaded exactly if it returns one.", "quantifier": "every state of the disk, every combination of answers of the server, the operating system and the decoders, forced or not", "why_tests_cant": "every combination of failures of some twenty calls to the outside; the numbers must be right for every document", "anchors": ["pkg/opencorpora/loader.go: Update, IsUpdateRequired, IsDownloadExists, IsUnpackedExists, SaveIndex, ParseUpdate, LoadIndex"]}
{"id": "C117", "title": "The log of the interactive tool answers what was typed", "statement": "Every line typed is answered in the tool's log or on its output. The log says what the answer is: for a word its readings one by one, or that it has none, or that it is not known and at which character; for the commands the number of tags, tables, nodes, the tag, the sets of a table. An error message is logged exactly if the command failed and names the command that was typed and the reason; the numbers logged beside a printed set, list of variants or node are those of what is printed. Two lines are logged in the same way only if they have the same answer.", "quantifier": "every index that calls of the interface can build, every line of bytes, every duration shown, every pair of lines and states", "why_tests_cant": "that two logs are alike only for equal answers is a statement about all pairs of words, names and durations, including words that look like the messages themselves", "anchors": ["cmd/opencorpora_test/main.go: processInput, processSearch, processTag, processSet, processVar, processNode, processReload", "internal/index/tagset_def.go: String", "pkg/dag/tagset.go: String"]}
{"id": "C118", "title": "The log of a whole session tells all the answers", "statement": "The log of a run of the interactive tool is one stream of messages without marks between the lines typed. From it all the answers can be told: two runs log the same only if they gave the same answers to the same number of lines, in the same order, including failed commands, reloads that worked or failed, and leaving the tool. A crash may leave no trace in the log.", "quantifier": "all pairs of runs of any length, with any lines of bytes typed, any durations shown, any indexes loaded and reloaded that calls of the interface can build with tag names of four bytes", "why_tests_cant": "where the messages about one line end is not marked; that no series of messages can be divided in two ways is a statement about all pairs of sessions", "anchors": ["cmd/opencorpora_test/main.go: main, processInput, processReload, processSearch, processTag, processSet, processVar, processNode"]}
{"id": "C119", "title": "The loader's log, as bytes, tells what an update did", "statement": "Give a logger every message of Update but the debug ones (or those too). If what it receives, level and text, is byte for byte the same in two calls with the same data directory, then both calls returned nil, both returned an error or both panicked; the same steps were taken in the same order with the same success; and the check for updates came to the same. If debug messages are let through as well, the numbers of words and nodes and the sizes of the files found were the same. Whenever warnings are let through, every message can be told from its text, and so can the text of the error, time or header in it. Line by line: the last line is an error exactly if an error is returned, \"lemmata up to date\" and \"update required, downloading\" are what the check came to, the lines about downloading, unpacking and compiling are the steps taken, and \"indexed W words N nodes\" gives the numbers of the index of the whole dictionary. The same for LoadIndex: the log tells whether an index was returned.", "quantifier": "all pairs of updates on all disks, servers and dictionaries, all data directories, all texts that errors, times and header values may have, all sets of levels let through", "why_tests_cant": "the messages contain texts from outside - errors of the network and the disk, header values - that may look like other messages or like their endings; that no two logs can be confused has to hold for all of them", "anchors": ["pkg/opencorpora/loader.go: Loader.Update, IsUpdateRequired, IsDownloadExists, IsUnpackedExists, DownloadUpdate, UnpackUpdate, ParseUpdate, SaveIndex, LoadIndex", "pkg/opencorpora/const.go: RemoteURL, LocalSourceFilename, LocalUnpackedFilename, LocalCompiledFilename", "pkg/opencorpora/errors.go: Error"]}
{"id": "C12", "title": "WordsCount counts tagged words", "statement": "WordsCount() equals the number of distinct nodes with at least one successful AddTagSet.", "quantifier": "every history within capacity, including Optimize and save/load", "why_tests_cant": "all histories", "anchors": ["internal/index/idx.go: WordsCount, rebuildChildrenIndex", "internal/index/node.go: AddTagSet"]}
{"id": "C120", "title": "The log of a run of the interactive tool tells its start, its answers and its status", "statement": "The tool is left with status 1 exactly if the last message it logs is an error message that begins with \"load index: \"; other runs end with status 0, crash or hang. The second message of a run with a dictionary gives the number of different words that have readings and the number of different non-empty beginnings of words. Two runs that log the same both had a dictionary at the start or neither had, with as many words and nodes, gave the same answers in the same order, and were both left with status 1 or neither. If an update logs \"indexed W words N nodes\" and ends with \"compiled index saved\", the tool started on the same disk loads that index and logs the very same line.", "quantifier": "all dictionaries made by any history of calls (for equal answers: with tag names of four bytes), all lines typed, all reloads, all durations and error texts; all updates of valid documents within capacity without unnoticed write errors", "why_tests_cant": "a line typed can make the tool log anything that begins like other messages; that no failed command can pass for a failed load, and that the numbers survive import, optimising, saving and loading, has to hold for all lines and all documents", "anchors": ["cmd/opencorpora_test/main.go: main, processInput, processReload", "pkg/opencorpora/loader.go: Loader.SaveIndex, LoadIndex", "internal/index/idx.go: Index.WordsCount, NodesCount"]}
{"id": "C121", "title": "The messages of Optimize tell what it did", "statement": "The messages Optimize logs tell the truth: how many lists of readings are stored; how many of them no word needs (none exactly if the call changes nothing); each list that stays, once, with its old and its new number, under which Variants gives the same list before and after; how many different combinations of readings the words have; each word with readings, once, with its number and list before and after, the lists being the same and what TagSets shows; as many updated items as WordsCount; the numbers of lists before and after, and the number of different readings. The messages about a list that differs after renumbering never appear, and a second Optimize says that nothing is unused.", "quantifier": "every history of calls including Optimize and reload, within capacity", "why_tests_cant": "the numbers are counted in four loops over maps and tables that are being rewritten; that they are the numbers of words, of different combinations and of different readings of the dictionary depends on the whole history", "anchors": ["internal/index/idx.go: Index.Optimize, Variants, WordsCount", "internal/index/variant_idx.go: KnownID", "internal/index/tagset_index.go: TableIDs"]}
{"id": "C122", "title": "The parser's log is a record of what was imported", "statement": "While an OpenCorpora document is imported, the log gets one line per form the index accepted, in document order, with the spelling and the tags (those of the lemma, then its own). After a success or a controlled stop these are all the forms the import was to process; after a failure the log ends at the last form accepted, and the next form of the document is the one that was rejected. In a new index and for a document within its capacity the ID in a line is the ID a search for the word gives afterwards, the parent is the node of the word without its last letter, and the last line about a word shows the item as it is after the import. The end of the dictionary is logged if and only if the import got to it.", "quantifier": "every document of the format, every limit on lemmas, every index (for the first part), every line of the log", "why_tests_cant": "The log depends on every form of the document, on the limit and on where an import fails; the numbers in a line come from an index that goes on changing after the line is written.", "anchors": ["pkg/opencorpora/parser.go: Parser.ProcessCharData, Parser.ProcessEndElement, Parser.onDictionaryLemmataLemma", "internal/index/node.go: Node.Item"]}
{"id": "C123", "title": "The bytes of the import log tell which dictionary was imported", "statement": "The text the parser writes to its log while it imports a document determines what was imported: if the logs of two imports into new indexes are the same byte for byte, the same word forms with the same tags were imported in the same order, whatever spellings the forms have (spaces, commas and brackets included) and with whatever limit on lemmas; and the two dictionaries, optimized, saved and loaded, answer every lookup alike. Two different messages of Optimize never have the same text.", "quantifier": "all pairs of documents of the format with declared tags within capacity, all limits, all strings looked up; all messages", "why_tests_cant": "A message runs numbers, spelling and tags together without quoting; that no two of the infinitely many pairs of documents give the same bytes rests on an invariant of the node numbers over the whole import.", "anchors": ["pkg/opencorpora/parser.go: onDictionaryLemmataLemma (Debugf), ProcessCharData, ProcessEndElement", "pkg/opencorpora/category_list.go: CategoryList.String", "internal/index/idx.go: Index.Optimize", "internal/index/variant_def.go: TagSetIDCollection.GoString"]}
{"id": "C124", "title": "The log of a whole update is a record of what was compiled", "statement": "In the log of an update the lines of the parser form one block right after \"start parse\" and those of Optimize one block right after \"optimize index\", and without these messages there are none; the log ends with a message of the loader, an error message exactly if Update returns an error. If Update succeeds and the last message is \"compiled index saved\", the parser's lines are about the whole dictionary on the disk, show all its forms with their tags in order, and the compiled index loads and answers as the dictionary says. If in two such updates, on any disks, the parser logged the same byte for byte, the two compiled indexes answer every lookup alike.", "quantifier": "every environment (server, disk, failures), every state of the disk, forced or not; for the record every document of the format with declared tags within capacity, and no write error that shows only on closing", "why_tests_cant": "which steps an update takes, and where it breaks off, depends on every answer of the server and of the disk; that equal logs mean equal dictionaries ranges over all pairs of updates", "anchors": ["pkg/opencorpora/loader.go: Loader.Update, ParseUpdate, SaveIndex", "pkg/opencorpora/parser.go: Parser", "internal/index/idx.go: Index.Optimize", "cmd/opencorpora_update/main.go: main"]}
{"id": "C125", "title": "Timing has no influence on an import", "statement": "However fast the computer is and whenever it pauses, importing a dictionary gives the same index and ends with the same error, if any. What the parser logs beside its speed reports is the same, and it is just the debug messages, so they are byte for byte the same on every computer and tell the forms that were imported; the info messages are just the speed reports. A speed report comes at the end of a lemma, when more than ten seconds have passed since the start or the last report; its number is the number of lemmas so far divided by the whole seconds since the start; and it never stops the import.", "quantifier": "all clocks that do not go backwards, all token streams, all indexes and limits; for the forms all pairs of documents of the format within capacity", "why_tests_cant": "tests run faster than the first report is due, and cannot try all timings", "anchors": ["pkg/opencorpora/parser.go:newParser", "pkg/opencorpora/parser.go:onDictionaryLemmataLemma", "pkg/opencorpora/loader.go:ParseUpdate"]}
{"id": "C126", "title": "The usage screen tells the truth", "statement": "What the update command writes about its own use agrees with what it does: the options on the screen are exactly the options it accepts, and the value shown as the default of an option is the value in effect, so that setting a listed option to its default before any other arguments changes neither the exit status nor what is done nor what is written. The screen is written exactly if the arguments are settings and the last setting of -h is on, and then nothing is done; with anything else among the arguments the same list of options is written and nothing is done. Two screens are the same exactly if the names of the programs are.", "quantifier": "all argument lists, all names of options, all paths by which the program is called, all environments and states of the disk", "why_tests_cant": "That no unlisted option is accepted, and that a default has no influence before any arguments, are statements about all argument lists; a test compares one screen.", "anchors": ["cmd/opencorpora_update/main.go: main, programDescription"]}
{"id": "C127", "title": "However the interactive tool starts and ends, it says so and gives the terminal back", "statement": "The tool is left with status 1 exactly if the last thing to be seen of it tells of a failure: a line on the standard output that logging cannot be set up, an error message that no index can be loaded (at the start or by a reload), or an error message that the line editor cannot be opened. Every other run ends with status 0, crashes or hangs. A line editor that was opened is closed before the tool ends. If logging and line editor can be set up, the run ends and logs as C49 and C120 say.", "quantifier": "all failures of the logger, of opening and of closing the line editor with any texts, all contents of the disk at the start and at each reload, all lines typed", "why_tests_cant": "that no line typed can make the tool log a last message which looks like a failed start, and whether the editor is closed on every way out, are statements about all sessions and all ways to end", "anchors": ["cmd/opencorpora_test/main.go: main, processInput, processReload"]}
{"id": "C13", "title": "Tagging one word does not disturb another", "statement": "AddTagSet on a node leaves TagSets() of every other node, every lookup and every Word() unchanged; adding words leaves TagSets() of all existing nodes unchanged.", "quantifier": "every reachable state within capacity, every later history, every pair of nodes; the untouched node has no empty reading (C10)", "why_tests_cant": "shared interning tables could leak; only all pairs/all states settle it", "anchors": ["internal/index/node.go: AddTagSet", "internal/index/idx.go: AddToNode"]}
{"id": "C14", "title": "Readings do not depend on order or repetition", "statement": "The set of readings reported for a word is the same for any order and any repetition of the AddTagSet calls made for it, and for any permutation of the tag names inside a call.", "quantifier": "every pair of histories that attach the same readings to a word, amid any other calls; no empty reading (C10)", "why_tests_cant": "all permutations", "anchors": ["internal/index/variant_def.go: Add", "internal/index/tagset_table.go: Index"]}
{"id": "C15", "title": "Tag registry is a stable injective numbering", "statement": "TagID(name,parent) returns the same id for the same name forever, different ids for different names, the first given parent wins, and Tags().Get(id)/Find(name) are inverse to it, as long as at most 256 names are registered.", "quantifier": "every sequence of TagID calls with at most 256 distinct names", "why_tests_cant": "all sequences; the capacity edge", "anchors": ["pkg/dag/idx.go: Index, Find, Get", "internal/index/idx.go: TagID"]}
{"id": "C16", "title": "Tag ids beyond 256 names", "statement": "Registering a further name never returns an id that already denotes another name.", "quantifier": "every registry state", "why_tests_cant": "needs 257 registrations; the claim is about all registry sizes", "anchors": ["pkg/dag/idx.go: Index"]}
{"id": "C17", "title": "Save then load preserves every query", "statement": "Loading the bytes written by BinaryWriteTo into a new index succeeds and yields an index that answers every lookup (not starting with NUL), Word, TagSets, Tags, NodesCount and WordsCount query exactly as the saved one, and continues to behave like it under further calls.", "quantifier": "every history within the file format's limits, every query", "why_tests_cant": "all index contents; a codec law", "anchors": ["internal/index/idx.go: BinaryWriteTo, BinaryReadFrom, rebuildChildrenIndex", "internal/index/items.go", "internal/index/item_def.go", "internal/index/tagset_*.go", "internal/index/variant_*.go", "pkg/dag/tag.go, name.go, idx.go"]}
{"id": "C18", "title": "Save then load preserves lookups starting with NUL", "statement": "A loaded index answers lookups starting with the NUL character like the saved one.", "quantifier": "every saved index, every query", "why_tests_cant": "an unlikely query character; only the universal statement exposes it", "anchors": ["internal/index/idx.go: rebuildChildrenIndex, FetchFromItem"]}
{"id": "C19", "title": "A truncated index file never loads", "statement": "If saving is interrupted after any number of bytes short of the whole file, loading the remains returns an error - never a partial index.", "quantifier": "every saved index, every crash point (byte count)", "why_tests_cant": "every crash point of every file", "anchors": ["internal/index/idx.go: BinaryReadFrom", "internal/index/items.go: BinaryReadFrom"]}
{"id": "C20", "title": "File framing is exact", "statement": "Loading consumes exactly the bytes that saving produced and ignores anything that follows.", "quantifier": "every saved index, every trailing byte string", "why_tests_cant": "all contents", "anchors": ["internal/index/idx.go: BinaryWriteTo, BinaryReadFrom"]}
{"id": "C21", "title": "Saving fails exactly for unrepresentable tag names", "statement": "BinaryWriteTo to a healthy writer returns an error if and only if some registered tag name or parent is neither empty nor exactly four bytes long; in particular it never reports success for tags it could not write.", "quantifier": "every index", "why_tests_cant": "all registries", "anchors": ["pkg/dag/name.go: MarshalBinary", "pkg/dag/idx.go: BinaryWriteTo"]}
{"id": "C22", "title": "Loading arbitrary bytes is safe", "statement": "BinaryReadFrom on any byte string terminates with an index or an error, without panic, and lookups on the loaded index never panic or run forever.", "quantifier": "every byte string, every query", "why_tests_cant": "adversarial/corrupt files", "anchors": ["internal/index/idx.go: BinaryReadFrom, FetchFromItem", "internal/index/node.go: Word, TagSets"]}
{"id": "C23", "title": "Optimize preserves every query", "statement": "Optimize() does not panic and changes no lookup, Word, TagSets, NodesCount or WordsCount result, now or after further calls.", "quantifier": "every reachable state within capacity", "why_tests_cant": "renumbering of all collections of all nodes", "anchors": ["internal/index/idx.go: Optimize"]}
{"id": "C24", "title": "Optimize keeps exactly the used collections", "statement": "After Optimize() every stored reading collection is used by some word and every used one is stored; a second Optimize() changes nothing.", "quantifier": "every reachable state within capacity", "why_tests_cant": "all states", "anchors": ["internal/index/idx.go: Optimize", "internal/index/variant_idx.go: KnownID"]}
{"id": "C25", "title": "Loading replaces the previous content", "statement": "BinaryReadFrom on an index that already has content behaves like loading into a new index.", "quantifier": "every prior index state, every saved file", "why_tests_cant": "all prior states", "anchors": ["internal/index/idx.go: BinaryReadFrom, rebuildChildrenIndex"]}
{"id": "C26", "title": "Composite ids pack and unpack losslessly", "statement": "Combine8/Combine16 followed by Upper/Lower return the parts, and every ID16/ID32 is the combination of its parts (a bijection).", "quantifier": "all 2^16 / 2^32 values", "why_tests_cant": "2^32 values", "anchors": ["pkg/storage/id16.go", "pkg/storage/id32.go", "internal/index/tagset_id.go", "internal/index/variant_id.go"]}
{"id": "C27", "title": "Set tables intern sets", "statement": "For Table8/Table16/Collection8x8/Collection16: after Index(s), Get(id) returns s sorted and Find(sorted s) returns the same id; equal sets (as multisets) share one id, different sets have different ids, and ids already handed out keep denoting the same set - while capacity lasts.", "quantifier": "every sequence of Index calls within capacity", "why_tests_cant": "all sequences", "anchors": ["pkg/storage/table8.go", "pkg/storage/table16.go", "pkg/storage/collection8.go", "pkg/storage/collection16.go"]}
{"id": "C28", "title": "Set tables beyond capacity", "statement": "Index on a full Table8 (256 sets) or Table16 (65536 sets) never returns an id that already denotes another set.", "quantifier": "every full table", "why_tests_cant": "65536 insertions; claim over all full tables", "anchors": ["pkg/storage/table8.go: Index", "pkg/storage/table16.go: Index"]}
{"id": "C29", "title": "Collection Find answers not-found instead of crashing", "statement": "Collection8x8.Find/Collection16.Find return found=false for every set that was never indexed.", "quantifier": "every collection state, every set", "why_tests_cant": "sets longer than any stored one", "anchors": ["pkg/storage/collection8.go: Find", "pkg/storage/collection16.go: Find"]}
{"id": "C30", "title": "Set files round-trip", "statement": "Set8/Set16/TagSet ReadFrom after WriteTo returns the same set and the same byte counts for sets up to 255/65535 elements; longer sets must not be silently corrupted.", "quantifier": "every set", "why_tests_cant": "all lengths up to and across the limit", "anchors": ["pkg/storage/set8.go", "pkg/storage/set16.go", "internal/index/tagset_def.go: WriteTo, ReadFrom"]}
{"id": "C31", "title": "Tag set index interns tag sets", "statement": "For the tag set index: Get(Index(s)) is s sorted, Find(sorted s) agrees, equal multisets share an id, different ones differ, handed-out ids stay valid, Size() counts distinct sets; non-empty sets, within capacity.", "quantifier": "every sequence of Index calls within capacity", "why_tests_cant": "all sequences", "anchors": ["internal/index/tagset_index.go", "internal/index/tagset_table.go"]}
{"id": "C32", "title": "TableIDs enumerates resolvable ids", "statement": "Every id listed by TagSetIndex.TableIDs() resolves with Get, and every indexed set is listed.", "quantifier": "every tag set index", "why_tests_cant": "all contents", "anchors": ["internal/index/tagset_index.go: TableIDs, Get"]}
{"id": "C33", "title": "Variants index interns reading collections", "statement": "For the variants index: Get(Index(c)) is c sorted, Find agrees, different collections get different ids, id 0 is reserved for the empty collection, handed-out ids stay valid, KnownID() lists exactly the ids of stored collections without repetition; within capacity.", "quantifier": "every sequence of Index calls within capacity", "why_tests_cant": "all sequences", "anchors": ["internal/index/variant_idx.go", "internal/index/variant_table.go", "internal/index/variant_id.go"]}
{"id": "C34", "title": "Queries by id never crash", "statement": "Index.Get(id) followed by TagSets()/String(), Index.Variants(id) and VariantsIndex.Get(id) return an error or a not-found result for ids that denote nothing.", "quantifier": "every index, every id", "why_tests_cant": "all ids, in particular 0 and out-of-range ones", "anchors": ["internal/index/idx.go: Get, Variants", "internal/index/node.go: TagSets, String", "internal/index/variant_idx.go: Get"]}
{"id": "C35", "title": "Tag names and tags survive the binary codec", "statement": "UnmarshalBinary(MarshalBinary(n)) is n for every four-byte name other than four spaces, the empty marker for the empty name, and MarshalBinary fails for every other name; the encoding is always 4 bytes and injective up to the three spellings of 'empty'.", "quantifier": "every byte string", "why_tests_cant": "all names", "anchors": ["pkg/dag/name.go", "pkg/dag/tag.go"]}
{"id": "C36", "title": "Node slots are always allocated before use", "statement": "Creating a node never indexes out of the item storage, ids are handed out consecutively, and existing items keep their content when storage grows - whatever growth step is chosen.", "quantifier": "every sequence of node creations", "why_tests_cant": "the growth schedule depends on the current length; all lengths matter", "anchors": ["internal/index/items.go: NewChild, Extend, Get"]}
{"id": "C37", "title": "Concurrent node creation hands out distinct ids", "statement": "In every interleaving of any number of concurrent Items.NewChild calls each call obtains a different id, the ids are exactly the next consecutive ones, and no call panics; once all calls finished each item holds the parent and letter of its own call.", "quantifier": "every number of goroutines, every schedule", "why_tests_cant": "schedules cannot be enumerated by tests", "anchors": ["internal/index/items.go: NewChild"]}
{"id": "C38", "title": "Concurrent lookups on a loaded index", "statement": "On an index obtained by loading a file, lookups do not modify the index at all, so any interleaving of any number of concurrent lookups gives each the sequential answer.", "quantifier": "every file content, every set of lookups, every schedule", "why_tests_cant": "all schedules", "anchors": ["internal/index/idx.go: FetchFromItem, GetChildrenIDMap, rebuildChildrenIndex"]}
{"id": "C39", "title": "Concurrent lookups on a freshly built index", "statement": "Lookups on an index under construction (no reload) perform no map writes, so they may run concurrently.", "quantifier": "every built index, every lookup", "why_tests_cant": "data races appear only under particular schedules", "anchors": ["internal/index/idx.go: FetchFromItem, GetChildrenIDMap"]}
{"id": "C40", "title": "Importing a dictionary attaches lemma and form tags to every form", "statement": "Parsing an OpenCorpora document registers every grammeme in order and then, for every form of every lemma, adds the form's word and attaches the lemma's tags followed by the form's tags; nothing else is added.", "quantifier": "every element tree over the recognised elements, any attributes, any text", "why_tests_cant": "all documents", "anchors": ["pkg/opencorpora/parser.go"]}
{"id": "C41", "title": "The parser rejects what it does not know", "statement": "An element at a path that is not part of the format, a missing required attribute, an empty word or an undeclared grammeme makes parsing fail, and nothing after it is processed.", "quantifier": "every event stream", "why_tests_cant": "all positions of the defect", "anchors": ["pkg/opencorpora/parser.go: ProcessStartElement, onDictionaryLemmataLemma"]}
{"id": "C42", "title": "The parser never panics on well-nested input", "statement": "For every well-nested stream of XML events the parser's handlers never dereference a missing current grammeme, lemma or form.", "quantifier": "every well-nested event stream", "why_tests_cant": "all documents", "anchors": ["pkg/opencorpora/parser.go: ProcessEndElement, onGrammeme, onDictionaryLemmataLemmaF"]}
{"id": "C43", "title": "SetMaxLemmas stops exactly there", "statement": "With a limit m>0 the parser processes exactly the first m lemmas (or all, if fewer) and then stops with the controlled-stop error, which the importer treats as success; with 0 there is no limit.", "quantifier": "every document, every limit", "why_tests_cant": "all documents and limits", "anchors": ["pkg/opencorpora/parser.go: SetMaxLemmas, onDictionaryLemmataLemma", "pkg/opencorpora/loader.go: ParseUpdate"]}
{"id": "C44", "title": "Imported, saved and reloaded dictionary answers like the source", "statement": "After ParseUpdate succeeded on a document and LoadIndex read the result, FetchString(w).TagSets() lists exactly the distinct non-empty tag lists of the forms spelled w in the document, and fails for every w that is not a prefix of a form.", "quantifier": "every document within the format's limits, every word", "why_tests_cant": "end to end over all documents", "anchors": ["pkg/opencorpora/loader.go: ParseUpdate, SaveIndex, LoadIndex", "pkg/opencorpora/parser.go", "internal/index/idx.go"]}
{"id": "C45", "title": "Update performs the right steps in the right order", "statement": "Update compiles only after a successful unpack or on a forced recompile, unpacks only after a successful download or on a forced recompile with failed check, never touches files when up to date and not forced, and returns nil exactly if every step it took succeeded.", "quantifier": "every combination of environment answers", "why_tests_cant": "all combinations of failures", "anchors": ["pkg/opencorpora/loader.go: Update, DownloadUpdate, UnpackUpdate, ParseUpdate"]}
{"id": "C46", "title": "A failed download is retried", "statement": "After a download that failed half-way, the next Update still considers an update required.", "quantifier": "every failure point, every remote and local time", "why_tests_cant": "needs a failure at a particular point plus a later run", "anchors": ["pkg/opencorpora/loader.go: DownloadUpdate, IsUpdateRequired"]}
{"id": "C47", "title": "A failed or interrupted save never leaves a loadable wrong index", "statement": "If SaveIndex fails, or the process dies at any point during it, then the file is exactly as it was before the call, or LoadIndex on that path returns an error (missing or truncated file), or - only when all bytes had been written - it returns the index being saved; it never returns an index with other content.", "quantifier": "every index, every previous file content, every failure/crash point", "why_tests_cant": "every crash point", "anchors": ["pkg/opencorpora/loader.go: SaveIndex, LoadIndex"]}
{"id": "C48", "title": "Forced recompile uses what is on disk", "statement": "A forced recompile with the downloaded archive present succeeds in reaching compilation, unpacking first when the unpacked file is missing.", "quantifier": "every environment", "why_tests_cant": "a particular combination of files and answers", "anchors": ["pkg/opencorpora/loader.go: Update"]}
{"id": "C49", "title": "Interactive tool survives any command line", "statement": "Every input line of the interactive tool is answered with a result or an error message, never a crash; every existing node can be displayed with the node command.", "quantifier": "every loaded index, every input line", "why_tests_cant": "all lines", "anchors": ["cmd/opencorpora_test/main.go: processInput, processTag, processSet, processVar, processNode"]}
{"id": "C50", "title": "String and rune conversions are inverse on valid UTF-8", "statement": "Decoding the UTF-8 encoding of any sequence of Unicode scalar values gives that sequence back; hence AddString/FetchString agree with AddRunes/FetchRunes and distinct valid strings are distinct words.", "quantifier": "every sequence of scalar values", "why_tests_cant": "1.1M characters, all sequences", "anchors": ["internal/index/idx.go: AddString, FetchString", "internal/index/node.go: Word"]}
{"id": "C51", "title": "The importer's shared slices do not corrupt tags", "statement": "Although the forms of a lemma may share the backing array of the lemma's tag list, the tag list attached to each form is exactly lemma tags followed by that form's tags.", "quantifier": "every lemma, every capacity/growth behaviour of append", "why_tests_cant": "append's capacity growth is runtime dependent", "anchors": ["pkg/opencorpora/parser.go: onDictionaryLemmataLemma"]}
{"id": "C52", "title": "Stored sets are independent of the caller's slice", "statement": "Changing a slice after passing it to Index of a set table does not change what Get returns.", "quantifier": "every table, every later write by the caller", "why_tests_cant": "aliasing through Go slices", "anchors": ["pkg/storage/table16.go: Index", "internal/index/tagset_table.go: Index", "internal/index/variant_table.go: Index"]}
{"id": "C53", "title": "A failed lookup names the longest known prefix", "statement": "The error of a failed FetchRunes(q) from the root contains Word() of the longest prefix of q present in the index and the first rune that does not continue it.", "quantifier": "every history, saving and loading included, every failing query — in an index that was loaded from a file, every query that does not begin with NUL (C18)", "why_tests_cant": "all histories", "anchors": ["internal/index/idx.go: FetchFromItem"]}
{"id": "C54", "title": "Children enumerates exactly the one-rune extensions", "statement": "Children()/GetChildrenMap(n) of an index maps a rune r to the node of word(n)+r exactly when that sequence is present, and to nothing otherwise.", "quantifier": "every history, saving and loading included, every node", "why_tests_cant": "all states", "anchors": ["internal/index/idx.go: Children, GetChildrenMap"]}
{"id": "C55", "title": "Update check never crashes and decides by modification time", "statement": "IsUpdateRequired answers true when the archive is missing, false without error only if the remote is not newer (or does not tell), and never panics.", "quantifier": "every local stat outcome and every remote answer", "why_tests_cant": "all combinations of failures", "anchors": ["pkg/opencorpora/loader.go: IsUpdateRequired"]}
{"id": "C56", "title": "The text of a node", "statement": "String() of a found node shows the word without its last letter, the last letter in brackets, and the numbers of the node, its parent and its readings - as valid text.", "quantifier": "every index, every word, every alphabet", "why_tests_cant": "depends on the byte length of the last letter; all letters of all alphabets matter", "anchors": ["internal/index/node.go: String", "internal/index/item_def.go: String"]}
{"id": "C57", "title": "A saved index can be loaded", "statement": "If SaveIndex returns nil, LoadIndex on the same path afterwards returns an index that gives the same answers as the one saved.", "quantifier": "every history of calls building the index, every outcome of the file operations", "why_tests_cant": "every combination of write and close failures", "anchors": ["pkg/opencorpora/loader.go: SaveIndex, LoadIndex"]}
{"id": "C58", "title": "A failed save keeps the previous index", "statement": "If compiling or saving a new index fails, the index compiled before can still be loaded.", "quantifier": "every failure point, every previous file", "why_tests_cant": "needs a failure at a particular point", "anchors": ["pkg/opencorpora/loader.go: SaveIndex, ParseUpdate"]}
{"id": "C59", "title": "Only a real archive is stored", "statement": "DownloadUpdate reports success only if it stored the complete body of a successful (status 200) answer.", "quantifier": "every answer of the server", "why_tests_cant": "all answers", "anchors": ["pkg/opencorpora/loader.go: DownloadUpdate"]}
{"id": "C60", "title": "A custom data directory works like the default one", "statement": "A loader created with its own data path makes that directory when it is missing and stores its files there, as it does for the default path.", "quantifier": "every data path, every state of the disk", "why_tests_cant": "depends on the state of the disk", "anchors": ["pkg/opencorpora/loader.go: NewLoader, DownloadUpdate, UnpackUpdate", "pkg/common/utils.go: MakeDomainDataPath"]}
{"id": "C61", "title": "After a successful update there is an index to load", "statement": "If Update returns nil, the compiled index on the disk is that of the downloaded dictionary.", "quantifier": "every environment, every history of earlier failures", "why_tests_cant": "needs a failed run before the successful one", "anchors": ["pkg/opencorpora/loader.go: Update"]}
{"id": "C62", "title": "A first update delivers the published dictionary", "statement": "If nothing fails and an update is required, Update returns nil, and the index LoadIndex then returns finds exactly the prefixes of the forms of the published document, each with exactly its readings.", "quantifier": "every document of the format within capacity, every state of the disk", "why_tests_cant": "all documents; end to end through network, disk, XML, index and file format", "anchors": ["pkg/opencorpora/loader.go: Update, LoadIndex", "pkg/opencorpora/parser.go", "internal/index/idx.go"]}
{"id": "C63", "title": "Every word can be searched in the interactive tool", "statement": "A line typed into the interactive tool that is a word of the index, or the beginning of one, is answered with the readings of that string; a line that is neither is answered with 'not found'.", "quantifier": "every index, every line", "why_tests_cant": "the space of words overlaps the space of commands; all words, all lines", "anchors": ["cmd/opencorpora_test/main.go: processInput, processSearch"]}
{"id": "C64", "title": "A loaded index saves to the same file", "statement": "Loading the file of an index and saving the result writes the same bytes again; whatever could be loaded, from any file, can be saved and loaded again with the same contents; two dictionaries with the same file answer alike.", "quantifier": "every index within the limits of the format; every file that loads", "why_tests_cant": "all indexes and all byte strings; a difference may hide in any field", "anchors": ["internal/index/idx.go: BinaryReadFrom, BinaryWriteTo", "pkg/dag/name.go"]}
{"id": "C65", "title": "Foreign files are refused", "statement": "A file that does not start with the section marker of the format is refused with an error; whatever loads consists of the four sections behind their markers in the fixed order.", "quantifier": "every byte string", "why_tests_cant": "all files", "anchors": ["internal/index/idx.go: readTagsDefinitions, readTagSetsDefinitions, readCollectionsDefinitions, readItemsDefinitions"]}
{"id": "C66", "title": "What was saved without an error can be loaded", "statement": "If BinaryWriteTo returns no error, BinaryReadFrom of the written bytes returns no error.", "quantifier": "every index built by calls of the API", "why_tests_cant": "depends on counts beyond the sizes used in tests", "anchors": ["internal/index/idx.go: BinaryWriteTo", "pkg/dag/idx.go: BinaryWriteTo"]}
{"id": "C67", "title": "A failed load leaves the index as it was", "statement": "If BinaryReadFrom returns an error, every question to the index it was called on is answered as before the call.", "quantifier": "every index, every file that is refused, every position of the damage", "why_tests_cant": "all damaged files and all earlier contents of the index", "anchors": ["internal/index/idx.go: BinaryReadFrom", "internal/index/items.go: BinaryReadFrom", "pkg/dag/idx.go: BinaryReadFrom"]}
{"id": "C68", "title": "Loading needs memory in proportion to the file", "statement": "The slices allocated while reading a file have together at most as many elements as the file has bytes, also if the file is refused.", "quantifier": "every file", "why_tests_cant": "all byte strings, in particular hostile ones", "anchors": ["internal/index/tagset_index.go: BinaryReadFrom", "internal/index/variant_table.go: BinaryReadFrom", "internal/index/items.go: BinaryReadFrom"]}
{"id": "C69", "title": "The node counter of a loaded index counts its nodes", "statement": "After loading any file, Get succeeds exactly for the ids up to NodesCount, and a word that is added gets the next id and is found again.", "quantifier": "every file that loads", "why_tests_cant": "all files, in particular those not written by the library", "anchors": ["internal/index/items.go: BinaryReadFrom, NewChild", "internal/index/idx.go: NodesCount, Get"]}
{"id": "C70", "title": "The exit status of the update command can be trusted", "statement": "The update command accepts exactly lists of -f, -d, -h (with one or two dashes, with or without a truth value), the last setting counting and -f being on by default; any other flag ends it with a status before it has done anything. It ends with 0 only after the usage screen or if Update returned nil, 1 if Update returned an error, 2 if it panicked. With -f on, status 0 means the compiled index on disk is that of the unpacked dictionary on disk.", "quantifier": "every argument list, every outcome of every system call and server answer, every state of the disk", "why_tests_cant": "all argument lists and all failures at all points", "anchors": ["cmd/opencorpora_update/main.go: main", "pkg/opencorpora/loader.go: Update, DownloadUpdate, SaveIndex"]}
{"id": "C71", "title": "Updating again changes nothing", "statement": "After Update returned nil, while the server offers nothing newer, a further Update does nothing at all, and a forced one compiles the same bytes again and leaves the other files alone.", "quantifier": "every dictionary, every state of the disk, every clock", "why_tests_cant": "depends on the clocks of two machines and on the contents of all files", "anchors": ["pkg/opencorpora/loader.go: Update, IsUpdateRequired, DownloadUpdate, ParseUpdate"]}
{"id": "C72", "title": "The interactive tool never changes the dictionary", "statement": "In a session without reload every line is answered as if it were the first line asked, whatever was asked before and whatever happens to the file meanwhile; reload continues with exactly what is on disk then, and ends the tool with status 1 if that cannot be loaded; exit and the end of the input give status 0.", "quantifier": "every index, every sequence of lines, every sequence of states of the file", "why_tests_cant": "all sessions; lookups create empty map entries behind the scenes", "anchors": ["cmd/opencorpora_test/main.go: main, processInput, processReload, processNode, processSearch", "internal/index/idx.go: GetChildrenIDMap"]}
{"id": "C73", "title": "Adding words from several goroutines", "statement": "When several goroutines add words to one index at the same time, every call that succeeds leaves its word findable under the node it returned, no word that was there is lost or changed, and the program does not crash.", "quantifier": "every index built by any history of calls, every number of goroutines, every choice of words, every schedule", "why_tests_cant": "lost words and data races need particular interleavings of map reads and writes; tests run a few", "anchors": ["internal/index/idx.go: AddToNode, AddRunes, GetChildrenIDMap"]}
{"id": "C74", "title": "Answers belong to the caller", "statement": "Assigning to, or appending to, what a query has returned (readings of a word, the list of tags, a map of children, a stored set or collection) does not change what the dictionary answers to anyone: after any sequence of calls and such assignments the dictionary is the one the calls alone lead to.", "quantifier": "all sequences of calls interleaved with all assignments and appends of the caller to earlier answers, all growth policies of append", "why_tests_cant": "whether two slices share an array depends on the whole history of appends and on the growth policy of the runtime; a test observes one layout", "anchors": ["internal/index/node.go: TagSets", "internal/index/idx.go: Tags, GetChildrenIDMap, TagSetIndex, Variants", "pkg/dag/idx.go: Index"]}
{"id": "C75", "title": "The tool's inspection commands show what the dictionary holds", "statement": "`set tables` shows for every number of tags how many different readings of that size have been attached to words and `set table i` lists them; `var` with the number `node` shows for a word lists exactly the word's readings, in the order of TagSets, each with a number, and `set` with such a number shows that reading; `tag count`, `tag k` and `tag NAME` show the number of tags, the k-th registered tag and the tag of that name.", "quantifier": "all histories of calls (including reload and Optimize), all words, all input lines, all behaviours of the number parser and of case folding", "why_tests_cant": "the tables are shared by all words and grow with the history; a test inspects a handful of sets in one dictionary", "anchors": ["cmd/opencorpora_test/main.go: processTag, processSet, processVar", "internal/index/tagset_index.go: Get, Index", "internal/index/variant_idx.go: Get"]}
{"id": "C76", "title": "Optimize does not fail, whether or not its debug messages are printed", "statement": "Optimize ends without a panic, changes no answer of the index, and leaves the same index behind whether messages of the debug level are printed or not (the messages look things up in the index while it is being rewritten).", "quantifier": "all indexes: every history of calls including reload and every file that loads; both settings of the log level", "why_tests_cant": "the messages are evaluated once per word and per renumbered collection, in the middle of the rewriting; whether a look-up hits a missing entry depends on the whole history or file", "anchors": ["internal/index/idx.go: Optimize", "internal/index/variant_idx.go: Get, KnownID, Index"]}
{"id": "C77", "title": "The index file has a fixed byte layout that any program can read and write", "statement": "Every file SaveTo writes without an error has the documented layout (four parts with two-letter marks, big-endian numbers: tags, readings by number of tags, combinations of readings by number of readings, one 16-byte record per node), and following the documentation one reads in it exactly the tags, words and readings of the dictionary; its size is given by the numbers of those, grows by 16 bytes per new node of an added word and is not changed by lookups. Conversely every file of that layout is loaded, whatever follows it, and the index then finds exactly the words of the file (NUL as first character aside) and shows its tags and readings.", "quantifier": "all histories of calls; all file contents within the format's limits; all lookups", "why_tests_cant": "a save/load round trip also succeeds when writer and reader share the same mistake; files already on users' disks only stay readable if every byte is as before for every dictionary", "anchors": ["internal/index/idx.go: BinaryWriteTo, BinaryReadFrom", "internal/index/items.go: BinaryWriteTo, BinaryReadFrom", "internal/index/tagset_index.go", "internal/index/variant_idx.go", "pkg/dag/tag.go, pkg/dag/idx.go: BinaryWriteTo, BinaryReadFrom"]}
{"id": "C78", "title": "A dictionary depends on its content, not on the order in which it came", "statement": "Two sequences of calls that register the same tags, add the same words and attach the same readings to the same words — in any order, any number of times, amid lookups, Optimize and reloads — lead to indexes with the same NodesCount and WordsCount and the same tags, in which every word is found or not found alike (with the same error), spelled alike, continued by the same characters and shown with the same readings. So the order of the lemmas in a document does not matter, importing several documents in a row is importing their union, and importing a document twice is importing it once.", "quantifier": "all pairs of histories with the same content; all pairs of documents with the same grammemes and forms; all query words", "why_tests_cant": "node numbers, set numbers and collection numbers all depend on the order of the calls; a test compares two orders of a handful of calls", "anchors": ["internal/index/idx.go: AddRunes, FetchRunes, NodesCount, WordsCount, Optimize", "internal/index/node.go: AddTagSet, TagSets, Word", "pkg/opencorpora/parser.go"]}
{"id": "C79", "title": "Printed texts identify what was printed and are the same every time", "statement": "The texts of stored tag sets, tables of them and collections of readings differ whenever the things differ; so do the texts of the readings of words; the text of a map of children and the tool's listing of children do not depend on the order in which the map is visited.", "quantifier": "all sets, tables and collections; all readings of all histories; all maps and all orders of visiting them", "why_tests_cant": "map order is random per run, so a test passes or fails by chance; ambiguity needs two values that happen to print alike", "anchors": ["internal/index/tagset_def.go: String", "internal/index/tagset_table.go: String", "internal/index/variant_def.go: GoString", "pkg/dag/tagset.go: String", "pkg/dag/map.go: String", "cmd/opencorpora_test/main.go: processNode"]}
{"id": "C80", "title": "Lemma lists are searched exactly; tags and texts of a form are its categories", "statement": "Search(word) on a list of lemmas returns exactly the lemmas whose base form is the word, in the order of the list and as often as the list has them. The tags of a form are the names of its categories, in order, by either call, and the tag of a grammeme has its name and its parent. None of these calls panics, whatever the lists hold, and different forms have different texts.", "quantifier": "all lists of lemmas, nil entries and duplicates included; all words; all forms", "why_tests_cant": "the list and the positions of equal and nil entries are arbitrary", "anchors": ["pkg/opencorpora/lemma_list.go: Search", "pkg/opencorpora/lemmata.go: Search", "pkg/opencorpora/form_item.go: GetTagsFromSet, String", "pkg/opencorpora/category_list.go: GrammemeNames, String", "pkg/opencorpora/grammeme_item.go: Tag"]}
{"id": "C81", "title": "Every file is where its path says", "statement": "Whatever data path a loader is given - relative, with dots, doubled slashes or none at all - its three files are the named files in the directory that path leads to, so files of different kinds or of different directories are never mixed up; the data of a domain is in its own directory below the data directory; and ResolveFilePath splits any path into directory, name and extension that make up the absolute path again, failing only if nothing is there.", "quantifier": "all data paths, domains and file names; all working directories; all file paths", "why_tests_cant": "paths are arbitrary strings with many spellings for one place", "anchors": ["pkg/common/utils.go: DomainDataPath, DomainFilePath", "pkg/opencorpora/loader.go: NewLoader, SetDataPath, DataPath", "pkg/dag/utils.go: ResolveFilePath"]}
{"id": "C82", "title": "What is published is what the tool shows", "statement": "If the update command runs while nothing fails and an update is due, it exits with status 0, and in every session of the interactive tool afterwards - whatever was asked before, with or without reloads - a word typed in is answered with exactly the readings the published document gives it, the beginning of a word with none, and any other line with 'not found'.", "quantifier": "every document of the format within capacity, every state of the disk, all command-line settings of the flags, all sessions and lines", "why_tests_cant": "end to end through network, disk, XML, index, file format and two programs, for all documents and all sessions", "anchors": ["cmd/opencorpora_update/main.go: main", "pkg/opencorpora/loader.go: Update, LoadIndex", "cmd/opencorpora_test/main.go: main, processInput, processSearch"]}
{"id": "C83", "title": "Comments, white space, attribute order and skipped parts do not matter", "statement": "Two documents of the format that differ only in comments, processing instructions, text outside grammeme names, the order of attributes, attributes that carry no content and the parts that are not imported (aliases, descriptions, restrictions, link types, links) are imported alike: from every starting index and for every limit of lemmas the resulting index and the error are the same.", "quantifier": "all pairs of documents related by any number of such changes at any depth, all starting indexes, all limits", "why_tests_cant": "infinitely many layouts of the same content, combined in any number and at any place", "anchors": ["pkg/opencorpora/parser.go: newParser, ProcessStartElement, ProcessCharData, ProcessEndElement, onGrammemeName", "pkg/opencorpora/xmlutils.go: GetString, getAttr"]}
{"id": "C84", "title": "Numbers can be typed as the tool shows them", "statement": "Whatever number the interactive tool shows - the number of a node, of a collection of readings (in decimal and in hexadecimal), of a tag set - typed after the corresponding command, exactly as shown, leads to that node, collection or set.", "quantifier": "all histories, all nodes, all numbers shown, every way the tool prints them", "why_tests_cant": "numbers are 32-bit; printing and parsing have separate bases, paddings and prefixes whose combination must agree for every value", "anchors": ["cmd/opencorpora_test/main.go: processSet, processVar, processNode", "internal/index/tagset_id.go: TagSetID", "internal/index/variant_id.go: VariantID"]}
{"id": "C85", "title": "Progress reports do not disturb an import", "statement": "While a document is imported the periodic speed report never stops the import: for every timing, the divisor is at least ten whole seconds, the number reported is the number of lemmas so far divided by the seconds since the start, and two reports are more than ten seconds apart.", "quantifier": "every clock that does not go backwards, every number of lemmas, every limit", "why_tests_cant": "timing dependent: a division by zero would need a particular schedule of clock readings", "anchors": ["pkg/opencorpora/parser.go: newParser, onDictionaryLemmataLemma, defaultLogAverageEachSeconds"]}
{"id": "C86", "title": "An index that loads is that of a complete document the server sent", "statement": "Whatever sequence of downloads, unpackings, compilations and updates was run, whatever failed in it and whenever the process died, if LoadIndex then returns an index, that index answers exactly as one complete document says which the server offered - never a mixture of two versions and never a part of one.", "quantifier": "every history of calls of the loader's methods, every environment of each call (server answers, disk errors, clocks, decoders), every point at which a call is cut off, every query", "why_tests_cant": "the histories, failures and crash points are unbounded, and the claim is about all queries to what is left on the disk", "anchors": ["pkg/opencorpora/loader.go: DownloadUpdate, UnpackUpdate, ParseUpdate, SaveIndex, LoadIndex, Update"]}
{"id": "C87", "title": "The checks for files tell the truth, and a forced update goes by them", "statement": "IsDownloadExists and IsUnpackedExists answer true exactly if the file can be examined and is there, and change nothing. When the server cannot be asked, a forced Update compiles the unpacked text if that check says yes, else unpacks the archive (and compiles it only if that succeeded) if that check says yes, else returns an error without touching anything.", "quantifier": "every state of the disk, every combination of failures of the file system and of the server", "why_tests_cant": "failures can occur at every call and in every combination", "anchors": ["pkg/opencorpora/loader.go: Loader.IsDownloadExists", "pkg/opencorpora/loader.go: Loader.IsUnpackedExists", "pkg/opencorpora/loader.go: Loader.Update"]}
{"id": "C88", "title": "What the tool prints for a node says everything about it", "statement": "For dictionaries whose tags have names of the length the file format stores (four bytes), two texts printed by the interactive tool's node command are the same exactly if the nodes have the same number, the same prefix (word so far), the same parent, the same variants number, the same readings by tag names in the same order, and the same children with the same letters and numbers. The order in which the child map is visited does not change the text, and nothing a prefix contains (line ends, text that looks like the tool's own labels) can make two different nodes print alike.", "quantifier": "all pairs of indexes reached by any histories of calls, all node lines typed, all prefixes as strings of any runes, all orders of map visiting", "why_tests_cant": "Unambiguity is a statement about all pairs of nodes, including prefixes with line ends and label look-alikes, and about every iteration order of a Go map.", "anchors": ["cmd/opencorpora_test/main.go: processNode (lines 288-328)", "internal/index/node.go: Node.Word, Node.TagSets, Node.Item", "internal/index/variant_id.go: VariantID.TableNum"]}
{"id": "C89", "title": "Sorting a set sorts it, in place and without loss", "statement": "Sort of a set (Set8, Set16, TagSet, and sort.Sort on collections and lists of ids) leaves in the caller's slice the same elements, each as often as before, in ascending order, whatever algorithm package sort uses; no other memory changes, not even the spare capacity behind the slice. Lists of children are put in the order of their parents.", "quantifier": "every set of any length with any elements, every position in memory, every algorithm that works through Len, Less and Swap and sorts lists of numbers", "why_tests_cant": "The algorithm of package sort differs between Go versions and between lengths; the claim is about all of them and all sets.", "anchors": ["pkg/storage/set8.go: Set8.Less, Set8.Swap, Set8.Sort", "pkg/storage/set16.go: Set16.Less, Set16.Swap, Set16.Sort", "internal/index/tagset_def.go: TagSet.Less, TagSet.Swap, TagSet.Sort", "internal/index/variant_def.go: TagSetIDCollection.Less, TagSetIDCollection.Swap", "internal/index/variant_idx.go: CollectionIDList.Less, CollectionIDList.Swap", "internal/index/relation.go: ChildList.Less, ChildList.Swap"]}
{"id": "C90", "title": "Looking words up while others are added", "statement": "While some goroutines add words to an index, others may look words up in it. No interleaving ends the program; every word added is found afterwards under the node its call returned; a lookup answers what a lookup made at one stroke would have answered at some moment during the call; words that were there before are found under their nodes throughout.", "quantifier": "every history, any number of goroutines, each adding or looking up any word, every schedule of their single steps, including the accesses to the Go maps", "why_tests_cant": "The outcome depends on the schedule; there are unboundedly many, a test sees the few the runtime happens to choose, and lookups look harmless but write maps.", "anchors": ["internal/index/idx.go: FetchFromItem, FetchRunes, AddToNode, AddRunes, GetChildrenIDMap"]}
{"id": "C91", "title": "A number typed at the tool means that number", "statement": "A number typed after set, var, node, tag or set table leads to the entry with exactly that number, however it is written; a number without an entry, or a text that is no number, is answered with a message.", "quantifier": "all texts typed, all ways of writing a number (decimal, octal, binary, hexadecimal, underscores, signs), all indexes", "why_tests_cant": "the number passes through two parsers and a conversion to 32 bits; a test tries a few numbers in a few notations", "anchors": ["cmd/opencorpora_test/main.go: processTag, processSet, processVar, processNode", "internal/index/tagset_id.go: TagSetID", "pkg/dag/id.go: ID"]}
{"id": "C92", "title": "Tagging, looking up and asking at the same time", "statement": "Calls made from several goroutines at the same time that add no words (TagID, AddTagSet, TagSets, WordsCount, FetchRunes, GetChildrenMap) answer, and leave the dictionary, as if they had been made one after the other in some order, and are free of data races.", "quantifier": "every index, any number of goroutines with any of these calls, every schedule of their single accesses to memory", "why_tests_cant": "The outcome depends on the schedule and on which tables the calls happen to share; a test sees a few schedules on a few indexes, and the race detector only the accesses it happens to observe.", "anchors": ["internal/index/node.go: AddTagSet, TagSets", "pkg/dag/idx.go: Index, Find", "internal/index/tagset_index.go: Index, Get", "internal/index/tagset_table.go: Index", "internal/index/variant_idx.go: Index, Get", "internal/index/variant_table.go: Index", "internal/index/idx.go: TagID, FetchRunes, GetChildrenIDMap, GetChildrenMap, WordsCount"]}
{"id": "C93", "title": "A word tagged while others are added keeps its reading", "statement": "If AddTagSet returns nil, the word has the reading from then on, also if other goroutines were adding words to the dictionary during the call.", "quantifier": "every storage of nodes, any number of goroutines adding words and tagging words, every schedule of their steps, every choice of the run-time when the storage grows", "why_tests_cant": "The reading is lost only if the storage is moved between two steps of AddTagSet; which growth moves it is up to the run-time, and a test sees few schedules.", "anchors": ["internal/index/node.go: AddTagSet", "internal/index/items.go: Get, NewChild, Extend"]}
{"id": "C94", "title": "A file saved while other goroutines work", "statement": "If other goroutines add words, tags and readings while BinaryWriteTo runs, the file can be loaded, and every word in it has exactly the readings it had at some moment during the save.", "quantifier": "every dictionary, every sequence of calls of other goroutines during the save, every choice of the moments between them at which the writer reads the tags, each table and each node", "why_tests_cant": "The file is put together from pieces read at different moments, and goes wrong only if a call falls between two particular reads; a test of saving has nobody else at work.", "anchors": ["internal/index/idx.go: BinaryWriteTo, BinaryReadFrom, Optimize", "internal/index/tagset_index.go: BinaryWriteTo", "internal/index/variant_idx.go: BinaryWriteTo", "internal/index/items.go: BinaryWriteTo", "internal/index/node.go: AddTagSet"]}
{"id": "C95", "title": "An error says what went wrong", "statement": "Every error a call of the index returns is recognised with errors.Is as an error of the index. Its text tells what went wrong: errors of different kinds have different texts; two failed lookups have the same text only if the same part of the word was known and the same character was missing next; the error of a failed save names the first tag that cannot be written; the error of a failed load tells which part of the file is at fault.", "quantifier": "every index, every call and argument; for lookups every pair of dictionaries and words; every list of tags for saving; every byte sequence for loading, whatever the errors of the reader", "why_tests_cant": "Two errors can only be shown to be always different by comparing the texts of all words, ids and names, including words that contain the brackets and quotes the text is built with.", "anchors": ["internal/index/idx.go: AddString, Get, FetchItemFromParent, FetchFromItem, AddToNode, TagSet, BinaryReadFrom, readTagsDefinitions, readTagSetsDefinitions, readCollectionsDefinitions, readItemsDefinitions, writeTagsDefinitions", "internal/index/node.go: AddTagSet, Word", "internal/index/item_def.go: Error", "pkg/dag/idx.go: Idx.BinaryWriteTo", "pkg/common/errors.go: ErrMarshal", "pkg/opencorpora/loader.go: LoadIndex"]}
{"id": "C96", "title": "Calls cost no more in a large dictionary than in a small one", "statement": "Looking up a word that is there takes exactly one step for each of its characters, a word that is not there at most two steps for each; adding a word takes one step for each character; a node's word and its readings take one step for each character, reading and tag in the answer. None of this depends on how much is stored. Attaching a reading also costs the same however large the dictionary is.", "quantifier": "every history of calls within capacity, every word, every node, every reading; a step is one round of a loop or one call of a recursive function", "why_tests_cant": "A benchmark measures some dictionaries; the claim is about all of them, and the expensive case depends on readings of other words.", "anchors": ["internal/index/idx.go: FetchFromItem, AddToNode, GetChildrenIDMap", "internal/index/node.go: Word, TagSets, AddTagSet", "pkg/dag/idx.go: Idx.Find", "internal/index/tagset_table.go: Find, Index", "internal/index/tagset_index.go: Index", "internal/index/variant_table.go: Find, Index", "internal/index/variant_idx.go: Index", "internal/index/variant_def.go: Has, Add, EqualTo"]}
{"id": "C97", "title": "A transcript of the tool tells what was shown", "statement": "What a session with the interactive tool writes to the standard output can be read back: two sessions write the same bytes exactly if they show the same things in the same order. From the bytes alone it can be told where the reply to one line ends and the next begins, which lines showed a node, a set of tags, a collection of sets or nothing, and for these the numbers, prefixes, tag names, and children.", "quantifier": "all pairs of sessions of any length with any lines typed (also unknown commands, reload, exit, lines that crash the tool), on all pairs of indexes reached by any histories of calls, all orders of visiting the map of children", "why_tests_cant": "Unambiguity is a statement about all pairs of transcripts; a test compares one transcript with one expected text.", "anchors": ["cmd/opencorpora_test/main.go: processInput, processSet, processVar, processNode, main", "internal/index/tagset_index.go: Get", "internal/index/idx.go: Variants", "pkg/dag/idx.go: Idx.Get"]}
{"id": "C98", "title": "The file of an optimized dictionary is as small as its content", "statement": "After Optimize, SaveTo writes exactly as many bytes as the content of the dictionary needs: a fixed number, and fixed amounts for each tag, each word or beginning of a word, each different reading and each different combination of readings that some word has. Two dictionaries with the same words, tags and readings have files of the same length, in whatever order and however often the calls were made, and no series of calls that gives the same content gives a shorter file. Optimize never makes the file longer.", "quantifier": "all histories of calls of any length, and all pairs of histories that give the same content", "why_tests_cant": "The number of intermediate combinations left behind depends on the order of all calls; that none of them is ever left in the file after Optimize, for every order, is not a finite check.", "anchors": ["internal/index/idx.go: Index.Optimize, Index.SaveTo, Index.AddTagSet", "internal/index/variant_idx.go: VariantsIndex.Index, KnownID, Table", "internal/index/tagset_index.go: TagSetIndex.Index, BinaryWriteTo", "internal/index/items.go: Items.BinaryWriteTo"]}
{"id": "C99", "title": "A dictionary can be copied through its own interface", "statement": "Go through a dictionary by node number, registering its tags in a new index, adding the word of each node and attaching each reading TagSets shows: no call fails, and the copy answers every query as the original does, with the same node numbers, NodesCount, WordsCount and tags. If the same calls are then made on both, they go on to answer alike.", "quantifier": "all dictionaries within capacity, built by any history of calls including Optimize and reload, whose words are text; all further calls", "why_tests_cant": "node numbers are the same only because every node comes after its parent in every reachable index, and readings only because what TagSets shows can be attached again and comes back unchanged; both depend on the whole history", "anchors": ["internal/index/idx.go: Index.AddString, AddTagSet, TagID, Word, FetchRunes, NodesCount, WordsCount, Tags", "internal/index/node.go: TagSets", "internal/index/items.go: Items"]}
