{"claims": [
  {"property": "C01", "status": "proved", "theorems": ["Verif.C01_runes", "Verif.C01_string"], "note": "every history (adds, lookups, tags, tagging, Optimize, save+load) within capacity Holds across saves and loads too, for words beginning with NUL as well."},
  {"property": "C02", "status": "proved", "theorems": ["Verif.C02_runes", "Verif.C02_string", "Verif.C02_exact", "Verif.not_C02"], "note": "found iff a non-empty prefix of an added word; otherwise an error, never a panic After a load, queries beginning with NUL are excluded: not_C02 is the witness that they must be, C02_exact what happens for every query."},
  {"property": "C03", "status": "proved", "theorems": ["Verif.C03_fetch", "Verif.C03_fetchString", "Verif.C03_fetchValid", "Verif.C03_add", "Verif.C03_exact", "Verif.C03_add_exact", "Verif.not_C03"], "note": "After a load, sequences beginning with NUL are excluded: not_C03 is the witness that they must be, C03_exact and C03_add_exact what happens for every sequence."},
  {"property": "C04", "status": "proved", "theorems": ["Verif.C04", "Verif.C04_order"], "note": ""},
  {"property": "C05", "status": "proved", "theorems": ["Verif.C05_injective", "Verif.C05_range", "Verif.C05_stable", "Verif.C05_word_stable", "Verif.C05_exact", "Verif.C05_range_exact", "Verif.not_C05"], "note": "Stability (C05_stable, C05_word_stable) holds for every sequence, across saves and loads. For the other parts, after a load, sequences beginning with NUL are excluded: not_C05 is the witness, C05_exact and C05_range_exact what happens for every sequence."},
  {"property": "C06", "status": "proved", "theorems": ["Verif.C06", "Verif.C06_string"], "note": ""},
  {"property": "C07", "status": "proved", "theorems": ["Verif.C07_empty", "Verif.C07_unknown"], "note": ""},
  {"property": "C08", "status": "proved", "theorems": ["Verif.C08"], "note": "Holds after loading too, for words beginning with NUL as well."},
  {"property": "C09", "status": "proved", "theorems": ["Verif.C09", "Verif.C09_logged"], "note": "nodes without an empty reading (that case is C10)"},
  {"property": "C10", "status": "partial", "theorems": ["Verif.C10_partial", "Verif.C10_shown", "Verif.C10_hidden", "Verif.not_C10_foreign", "Verif.not_C10_hidden", "Verif.not_C10_isolation", "Verif.C10_exact"], "note": "violated by the code: C10_shown and C10_hidden characterise exactly what is reported instead, with concrete counterexamples; C10_partial is what remains true C10_exact excepts nothing: it says for every word and string what is answered instead."},
  {"property": "C100", "status": "partial", "theorems": ["Verif.C100_partial", "Verif.C100_ordered", "Verif.C100_root", "Verif.C100_exact", "Verif.not_C100"], "note": "Walks from a found word and, before any reload, from the root: they end, visit exactly the node and all words that begin with it, once each, in dictionary order if the maps are visited in the order of characters. After a reload the walk from the root never ends (not_C100; C100_exact says when it ends). After a reload the starting word must not begin with NUL (C18)."},
  {"property": "C101", "status": "partial", "theorems": ["Verif.C101_partial", "Verif.C101_before", "Verif.C101_first", "Verif.C101_exact", "Verif.C101_last", "Verif.C101_all", "Verif.not_C101_mixed", "Verif.not_C101_died", "Verif.not_C101_removed", "Verif.not_C101_different", "Verif.C101_alone"], "note": "Readers get an error or a whole dictionary if they open the file after the saving has begun, end before it, or nothing changes; in general exactly the splices of the old and the new file (C101_exact), which can load as a mixture (not_C101_mixed). Writers of the same dictionary leave it whole if the last to begin is done (C101_last, C101_all); counterexamples for a dying, a failing and a different writer. A process that saves where the file was removed leaves exactly its index, whoever still writes to the removed file (C101_alone)."},
  {"property": "C102", "status": "partial", "theorems": ["Verif.C102_partial", "Verif.C102_part", "Verif.C102_self", "Verif.C102_twice", "Verif.C102_order", "Verif.mergeRoom_of", "Verif.not_C102_empty", "Verif.not_C102_nul", "Verif.not_C102_parent", "Verif.C102_exact"], "note": "All pairs of histories with room for both, words of Unicode characters, no empty readings (for C102_partial in what is attached to the one and shown by the other). Lookups that start with NUL are left out of what is compared. Missing: empty readings (not_C102_empty), words that start with NUL merged into a reloaded dictionary (not_C102_nul), parents of tags both have (not_C102_parent).  C102_exact has no exceptions: it compares with the same program run on the reference implementation."},
  {"property": "C103", "status": "partial", "theorems": ["Verif.C103_write8", "Verif.C103_write16", "Verif.C103_read8", "Verif.C103_read16", "Verif.C103_sent8", "Verif.C103_sent16", "Verif.C103_count16_exact", "Verif.C103_error_exact8", "Verif.C103_same8", "Verif.not_C103_count16", "Verif.not_C103_error", "Verif.C103_error_exact16"], "note": "All sets, streams and points of failure. False of the code: counts of Set16 when the stream breaks inside an element (not_C103_count16; exactly then: C103_count16_exact) and what the error of WriteTo wraps (not_C103_error, C103_error_exact8). A two-byte read that fails is taken to use up what was left, as io.ReadFull does; the count TagSet.WriteTo reports after a failure is left to the binutils library."},
  {"property": "C104", "status": "partial", "theorems": ["Verif.C104_partial", "Verif.C104_serial", "Verif.not_C104_empty", "Verif.not_C104_forced", "Verif.C104_compiled", "Verif.C104_faults", "Verif.C104_same", "Verif.C104_ends", "Verif.C104_each"], "note": "Proved for schedules in which no process writes a file that another one has open and no process told to recompile begins while another is at work; updates one after another are of this kind (C104_serial). False otherwise, with two witnesses in which both updates report success: one leaves an empty dictionary, the other the old one. Assumes that an archive created by one of the processes counts as up to date and one from before does not. Failing calls and dying processes are in the model but not in the claim (see C57, C60, C101). In any schedule and with any faults, a process that reports it has saved the index has read a text to its end and compiled all of it (C104_compiled, C104_same), and no call of it has failed except the first check, and that only if it was told to recompile and there was something to go on with (C104_faults). An update left to itself always returns, whatever went before (C104_ends); any number of updates run one after another therefore all succeed and leave the server's dictionary (C104_each)."},
  {"property": "C105", "status": "partial", "theorems": ["Verif.C105_counted", "Verif.C105_partial", "Verif.C105_grows", "Verif.C105_words", "Verif.C105_left", "Verif.C105_exact", "Verif.C105_when", "Verif.C105_again"], "note": "Proved bound: linear in the words, the readings and the attaching calls, but quadratic in the number of different combinations. Linear work is missing because it is false: if Optimize changes anything, it compares each two combinations of the same number of readings (C105_grows; C105_words in terms of words). When it changes anything is exact for every history whose tags can be saved (C105_exact). Counted are the rounds of the loops, not sort.Sort and logging."},
  {"property": "C106", "status": "partial", "theorems": ["Verif.C106_partial", "Verif.C106_stray", "Verif.C106_maps", "Verif.C106_loaded", "Verif.C106_grows", "Verif.not_C106"], "note": "Proved for histories whose lookups by id start at ids of nodes. False in general: a lookup that starts at an id no node has leaves an empty map of children for that id until the dictionary is loaded again (C106_stray says exactly when, not_C106 that nothing but the number of ids bounds it)."},
  {"property": "C107", "status": "partial", "theorems": ["Verif.C107_words", "Verif.C107_end", "Verif.C107_ends", "Verif.C107_partial", "Verif.C107_exact", "Verif.C107_idle", "Verif.not_C107", "Verif.not_C107_crash", "Verif.not_C107_lost", "Verif.not_C107_mixed"], "note": "Small-step Optimize with whole calls of other goroutines in between. For calls that attach no reading: words, ids and counts are undisturbed at every moment, Optimize never panics, ends, and leaves exactly what the calls followed by Optimize leave. A reader of TagSets (number read at one moment, tables at a later one) is shown the right readings if and only if the number is not changed or both are from before or both from after (C107_exact). The full claim is false: a word is shown with the readings of another (not_C107), a reader crashes (not_C107_crash), a reading that AddTagSet reported as attached is lost (not_C107_lost), a word ends with readings it never had (not_C107_mixed)."},
  {"property": "C108", "status": "partial", "theorems": ["Verif.C108_words", "Verif.C108_exact", "Verif.C108_partial", "Verif.C108_import_partial", "Verif.C108_limit_partial", "Verif.not_C108"], "note": "Everything but the readings of words with an empty reading (cf. C10), where it fails: attaching an empty reading can hide the others (not_C108). C108_exact says for every word exactly when every reading is kept. After a reload words starting with NUL are left out (C18)."},
  {"property": "C109", "status": "partial", "theorems": ["Verif.C109_partial", "Verif.C109_exact", "Verif.C109_grows", "Verif.C109_end", "Verif.C109_ends", "Verif.not_C109", "Verif.not_C109_nul"], "note": "Small-step load into a new index (each byte of the file, then each access of rebuildChildrenIndex) with whole lookups of other goroutines in between. Looked up by its letters a word is not found or found with everything the loaded dictionary says about it; exactly the nodes below a number are found (C109_exact), which only grows (C109_grows); the load ends and the answers and the saved bytes are then those of the file loaded alone. The full claim is false: nodes asked for by number are announced before they are read (not_C109), and a word starting with NUL is for a moment found at the root (not_C109_nul). Not covered: two goroutines accessing one map at the same time, which Go ends with a fatal error (C90)."},
  {"property": "C11", "status": "proved", "theorems": ["Verif.C11"], "note": "any state, reachable or not"},
  {"property": "C110", "status": "proved", "theorems": ["Verif.C110_counted", "Verif.C110_load", "Verif.C110_save", "Verif.C110_tight", "Verif.C110_save_exact", "Verif.C110_load_exact"], "note": "Rounds of loops are counted, for every byte sequence and every index. C110_counted: the counted functions return what the modelled functions return. C110_tight: the bound for loading is reached. Not counted: make (C68 says how much is asked for), reading or writing a single number."},
  {"property": "C111", "status": "partial", "theorems": ["Verif.C111_partial", "Verif.C111_remove", "Verif.C111_exact", "Verif.C111_stuck", "Verif.C111_kept", "Verif.not_C111"], "note": "Fails in general (not_C111): the disk is full while an archive is unpacked; from then on no number of updates, forced or not, makes a dictionary available, because the archive counts as current and is never unpacked again. C111_partial: it holds from any disk without an archive or with one older than the server's date. C111_remove: hence removing the archive always helps. C111_exact: all cases with a current archive. C111_stuck: with a current archive and a text file that is missing or not a dictionary, nothing changes in any sequence of updates. C111_kept: a dictionary put right stays right."},
  {"property": "C112", "status": "proved", "theorems": ["Verif.C112", "Verif.C112_exact", "Verif.C112_unique", "Verif.C112_kept"], "note": "C112 for words without an empty reading; C112_exact without this condition; C112_unique: content and arrangement determine the list; C112_kept: an earlier answer is a subsequence of every later one."},
  {"property": "C113", "status": "proved", "theorems": ["Verif.C113", "Verif.C113_one", "Verif.C113_after", "Verif.C113_same"], "note": "C113: equality of all answers of a program within capacity (Room speaks of the program alone); C113_after: from any reached state; C113_same: indexes standing for the same content are indistinguishable."},
  {"property": "C114", "status": "proved", "theorems": ["Verif.C114", "Verif.C114_counted", "Verif.C114_tokens", "Verif.C114_grows", "Verif.C114_least"], "note": "C114: upper bound for documents of the format with declared tags, within capacity; C114_counted: the counted parser is the parser on every token stream; C114_tokens: the parser's own work on every stream; C114_grows, C114_least: lower bounds. Steps are loop rounds and calls; not counted: the XML decoder, the path string, map lookups, logging."},
  {"property": "C115", "status": "proved", "theorems": ["Verif.C115", "Verif.C115_start", "Verif.C115_apart"], "note": "C115: result and all dictionaries after the program, from any histories; Within is a condition on the program and the reference implementation alone. C115_apart: no condition on capacity. Sharing of slices between caller and index is C52 and C74."},
  {"property": "C116", "status": "partial", "theorems": ["Verif.C116_partial", "Verif.C116_numbers", "Verif.C116_load", "Verif.not_C116_saved", "Verif.not_C116_updated", "Verif.not_C116_downloaded", "Verif.not_C116_upToDate", "Verif.not_C116_panic", "Verif.C116_required", "Verif.C116_checks", "Verif.C116_save", "Verif.C116_saved_exact", "Verif.C116_updated_exact", "Verif.C116_panic_exact"], "note": "C116_partial: for every environment, unless Update panics, the log is true in the sense of LogTrue (result, steps, files, contents of archive, dictionary and compiled index, numbers), and the messages of the first decision say exactly what the check came to. C116_numbers: the numbers are those of the document's forms and of the index loaded then. C116_load: LoadIndex. Missing, because false: 'compiled index saved' is logged for a truncated index when the failure shows only on closing (not_C116_saved); 'lemmata updated' without any download (not_C116_updated); 'downloaded' for an error page (not_C116_downloaded); 'up to date' after a broken download (not_C116_upToDate); a panic of the check leaves no error message (not_C116_panic). C116_required, C116_checks and C116_save: the other messages of the check, of the checks for files and of saving are logged exactly if they are true. C116_saved_exact and C116_updated_exact say exactly when these two messages mislead. C116_panic_exact: exactly when Update panics, and that nothing has changed then."},
  {"property": "C117", "status": "partial", "theorems": ["Verif.C117_says", "Verif.C117_tells_partial", "Verif.C117_answers_partial", "Verif.C117_error", "Verif.C117_names_partial", "Verif.C117_notFound", "Verif.not_C117_table", "Verif.not_C117_answers", "Verif.C117_reason", "Verif.C117_set", "Verif.C117_var", "Verif.C117_node"], "note": "All histories within capacity, all lines, all durations. That logs tell answers apart: for tags with names of four bytes; without that it is false (not_C117_answers). That an error names its command: exactly for all lines but the bare words var, v, node, n, whose message is that of set (C117_names_partial); the message about one table is headed set.tables (not_C117_table). Not modelled: what the logger adds to a message, the message about a failed reload (the tool ends), formatting by fmt beyond the verbs used. An error is logged exactly if there is something to complain about, and the message is the one for it (C117_reason; the list of complaints is in Spec/ToolLog). What is logged beside printed sets, variants and nodes agrees with what is printed (C117_set, C117_var, C117_node)."},
  {"property": "C118", "status": "partial", "theorems": ["Verif.C118_answers_partial", "Verif.C118_replies", "Verif.not_C118_crash"], "note": "Proved for indexes whose tag names have four bytes (as in OpenCorpora): equal logs, equal answers; the answers are the replies of the loop. With names that contain commas it fails already for one line (not_C117_answers, under C117). not_C118_crash: a crash by a negative number is not logged. The messages of main before the first line are not modelled; what the logger adds to a message is not modelled."},
  {"property": "C119", "status": "proved", "theorems": ["Verif.C119", "Verif.C119_lines", "Verif.C119_load", "Verif.not_C119_quiet", "Verif.C119_text", "Verif.C119_reason"], "note": "The texts of all messages of the loader are modelled as bytes; texts of errors, times and headers are arbitrary, except that the error shown for a failed check is that of the check (as in the code). How the logger decorates messages is not part of it. not_C119_quiet: with warnings and errors alone, a silent log does not tell an update that did everything from one that did nothing."},
  {"property": "C12", "status": "proved", "theorems": ["Verif.C12"], "note": ""},
  {"property": "C120", "status": "partial", "theorems": ["Verif.C120_partial", "Verif.C120_status", "Verif.C120_numbers", "Verif.C120_pipeline"], "note": "Status, numbers and the line shared by update and tool are proved in full (main's own messages; failures of the logger and of readline: C127). That equal logs mean equal answers is proved for tag names of four bytes, as in OpenCorpora; without that it is false, see C117 and C118."},
  {"property": "C121", "status": "proved", "theorems": ["Verif.C121", "Verif.C121_numbers", "Verif.C121_same", "Verif.C121_twice"], "note": "For every history of calls. For files that load but were not written by the program Optimize may panic (not_C76)."},
  {"property": "C122", "status": "proved", "theorems": ["Verif.C122", "Verif.C122_items", "Verif.C122_closed"], "note": "The messages are modelled as what they are made of, not as text; the speed report is C85. C122 holds for any index; C122_items is for a new index and a document with Declared/DocRoom (every index of the real importer is new). C122_closed is for documents with one dictionary element, as all files of the format have."},
  {"property": "C123", "status": "proved", "theorems": ["Verif.C123", "Verif.C123_forms", "Verif.C123_any", "Verif.C123_line", "Verif.C123_optimize", "Verif.not_C123_line", "Verif.C123_levels"], "note": "fmt is taken to format as documented; decoration of messages by the logger and the speed reports (C85) are left out. C123_any: imports into arbitrary indexes, for tag names of four bytes that do not end in ' ['. not_C123_line: without that a single message can be ambiguous; C123 and C123_forms need no such condition, because the node numbers tell the forms apart. C123_levels: at the level of info messages nothing of the parser's log is left, and of Optimize just the counts."},
  {"property": "C124", "status": "proved", "theorems": ["Verif.C124", "Verif.C124_order", "Verif.C124_content", "Verif.C124_record", "Verif.not_C124_tags"], "note": "All environments and disks, forced or not. The record is for documents of the format with declared tags within capacity and if no write error shows only on closing (otherwise not_C116_saved). not_C124_tags: the grammemes themselves are not in the log, so equal logs need not mean equal lists of tags. The parser's speed reports are left out."},
  {"property": "C125", "status": "proved", "theorems": ["Verif.C125", "Verif.C125_reports", "Verif.C125_due", "Verif.C125_bytes", "Verif.C125_forms", "Verif.not_C125_backwards", "Verif.C125_lemmas", "Verif.C125_document"], "note": "All clocks that do not go backwards, as Go's monotonic clock. The rounding of float64 in Seconds() is not modelled: it is exact at whole seconds. not_C125_backwards: with another clock the report can divide by zero and the import of a faultless document ends in a panic. The number of lemmas is the parser's count after the tokens up to the report. C125_lemmas: reports come at the ends of lemmas, and the lemmas counted are those that ended in the text up to there, counted without the parser. C125_document: for a document that can be imported the count is the number of its lemmas."},
  {"property": "C126", "status": "proved", "theorems": ["Verif.C126", "Verif.C126_shown", "Verif.C126_name", "Verif.not_C126_newline", "Verif.options_listed"], "note": "The flag package of the standard library is modelled from its source; its line about a wrong argument is a parameter. Assumed: the name of the program has no line end (not_C126_newline: otherwise the screen can list an option there is not)."},
  {"property": "C127", "status": "partial", "theorems": ["Verif.C127_status_partial", "Verif.C127_closed_exact", "Verif.C127_healthy", "Verif.not_C127"], "note": "Status and messages are proved in full. The clause about closing is false: os.Exit skips the deferred Close, so the line editor is closed exactly in the runs that crash (C127_closed_exact; not_C127 for exit and the end of the input)."},
  {"property": "C13", "status": "proved", "theorems": ["Verif.C13", "Verif.C13_lookups"], "note": "nodes without an empty reading; not_C10_isolation shows the exclusion is necessary. The later history may contain saves and loads if the names and parents registered so far have four bytes, as the file format wants them"},
  {"property": "C14", "status": "proved", "theorems": ["Verif.C14"], "note": ""},
  {"property": "C15", "status": "proved", "theorems": ["Verif.C15_inverse", "Verif.C15_stable", "Verif.C15_parent", "Verif.C15_injective", "Verif.C15_known"], "note": "The parent also survives saves and loads if name and parent have four bytes (C15_parent)."},
  {"property": "C16", "status": "partial", "theorems": ["Verif.C16_partial", "Verif.not_C16", "Verif.not_C16_reachable", "Verif.C16_exact"], "note": "violated by the code for the 257th name: its id is 0; C16_partial covers up to 256 names C16_exact says exactly when the property fails."},
  {"property": "C17", "status": "proved", "theorems": ["Verif.C17", "Verif.C17_further"], "note": "Every observable query agrees before and after save+load, for every history within capacity, and stays in agreement under further operations."},
  {"property": "C18", "status": "partial", "theorems": ["Verif.C18_partial", "Verif.C18_exact", "Verif.not_C18"], "note": "Violated: not_C18 is a reachable counterexample (words beginning with NUL). C18_partial proves preservation for the remaining lookups; C18_exact characterises the reloaded index."},
  {"property": "C19", "status": "proved", "theorems": ["Verif.C19", "Verif.C19_any_file"], "note": ""},
  {"property": "C20", "status": "proved", "theorems": ["Verif.C20", "Verif.C20_any_file"], "note": ""},
  {"property": "C21", "status": "proved", "theorems": ["Verif.C21"], "note": ""},
  {"property": "C22", "status": "partial", "theorems": ["Verif.C22_load_partial", "Verif.C22_lookup_partial", "Verif.C22_lookup_string_partial", "Verif.not_C22", "Verif.C22_word_exact", "Verif.C22_lookup_exact", "Verif.C22_readings_exact"], "note": "Proved: loading any bytes returns an index or an error, and every lookup from the root on whatever loaded returns and changes nothing. Violated: Word/FetchFromItem by id can recurse for ever and TagSets can panic on a crafted file (not_C22)."},
  {"property": "C23", "status": "proved", "theorems": ["Verif.C23", "Verif.C23_further"], "note": "Optimize leaves every observable answer unchanged, now and after any further operations."},
  {"property": "C24", "status": "proved", "theorems": ["Verif.C24", "Verif.C24_kept", "Verif.C24_idempotent"], "note": "After Optimize exactly the used collections are stored; a second Optimize changes nothing."},
  {"property": "C25", "status": "partial", "theorems": ["Verif.C25_partial", "Verif.C25_exact", "Verif.not_C25"], "note": "Violated: loading into a non-empty index keeps old entries (not_C25). C25_partial/C25_exact state what does hold."},
  {"property": "C26", "status": "proved", "theorems": ["Verif.C26_id16", "Verif.C26_id32", "Verif.C26_injective"], "note": ""},
  {"property": "C27", "status": "proved", "theorems": ["Verif.C27_table8", "Verif.C27_table16", "Verif.C27_collection8", "Verif.C27_collection16", "Verif.C27_index_total"], "note": ""},
  {"property": "C28", "status": "partial", "theorems": ["Verif.not_C28_table8", "Verif.not_C28_table16", "Verif.C28_partial", "Verif.C28_exact8", "Verif.C28_exact16"], "note": "The property is false of the code beyond capacity: negations proved with witnesses; C28_partial gives the bound up to which it holds. The exact theorems say which key comes out, for every table and set."},
  {"property": "C29", "status": "partial", "theorems": ["Verif.not_C29", "Verif.C29_partial", "Verif.C29_exact8", "Verif.C29_exact16"], "note": "False of the code: Find panics; negation proved, C29_partial says when it does not. The exact theorems say which of the three answers Find gives, for every set."},
  {"property": "C30", "status": "partial", "theorems": ["Verif.C30_set8", "Verif.C30_set16", "Verif.C30_truncated8", "Verif.C30_truncated16", "Verif.not_C30_long8", "Verif.not_C30_long16", "Verif.C30_exact8", "Verif.C30_exact16"], "note": "Round trip and truncation proved within the limits; the last clause (longer sets) is false of the code and its negation is proved.  C30_exact8/16 say for every length what is read instead."},
  {"property": "C31", "status": "proved", "theorems": ["Verif.C31_interns", "Verif.C31_size", "Verif.C31_empty"], "note": ""},
  {"property": "C32", "status": "partial", "theorems": ["Verif.not_C32", "Verif.C32_partial", "Verif.C32_exact"], "note": "False of the code (listed ids are shifted by one table); negation proved, C32_partial characterises the listed ids exactly. C32_exact: each half of the property holds exactly of an index without sets."},
  {"property": "C33", "status": "proved", "theorems": ["Verif.C33_interns", "Verif.C33_zero", "Verif.C33_knownID", "Verif.C33_table", "Verif.C33_following"], "note": ""},
  {"property": "C34", "status": "partial", "theorems": ["Verif.C34_partial", "Verif.C34_variants_exact", "Verif.not_C34", "Verif.not_C34_variants", "Verif.C34_tagSet"], "note": "Violated for node 0 and unknown variant ids (not_C34, not_C34_variants). C34_partial: exact range of Get and no panic for ids 1..NodesCount; C34_variants_exact: exactly which variant ids panic."},
  {"property": "C35", "status": "proved", "theorems": ["Verif.C35_marshal", "Verif.C35_roundtrip", "Verif.C35_injective", "Verif.C35_unmarshal"], "note": ""},
  {"property": "C36", "status": "proved", "theorems": ["Verif.C36", "Verif.C36_step", "Verif.C36_code"], "note": "For every growth policy with positive steps, and every sequence of creations within 32-bit ids."},
  {"property": "C37", "status": "partial", "theorems": ["Verif.C37_partial", "Verif.C37_keeps_partial", "Verif.C37_contents_partial", "Verif.C37_in_place_partial", "Verif.C37_room_partial", "Verif.not_C37", "Verif.C37_exact", "Verif.C37_exact_id"], "note": "Ids distinct, consecutive and panic-free, and the nodes that existed before unchanged, in every schedule (C37_partial, C37_keeps_partial). Contents correct in every schedule in which the storage is never copied while some call is between reading the storage address and writing a field (C37_contents_partial), in particular when growth is in place (C37_in_place_partial) or not needed (C37_room_partial). In general the contents claim is false: the stores run after the lock is released, and a concurrent growth loses them (not_C37). C37_exact: in every schedule each field of a finished call is that of the call unless just its store was overtaken by a copy, and then it is the slot's previous content."},
  {"property": "C38", "status": "proved", "theorems": ["Verif.C38"], "note": "Every file, every set of lookups, every schedule; includes termination of each lookup."},
  {"property": "C39", "status": "partial", "theorems": ["Verif.C39_partial", "Verif.not_C39", "Verif.C39_exact", "Verif.C39_answers_partial"], "note": "Successful lookups never write. A failing lookup that stops at a leaf writes to the children map; two in parallel are a fatal data race (not_C39). C39_exact: a crash is possible exactly when one of the lookups would write and another goroutine looks up at least one letter."},
  {"property": "C40", "status": "proved", "theorems": ["Verif.C40"], "note": "For every well-formed document tree the token-driven parser performs exactly the entry sequence of the document (tags, then for each lemma form AddString+AddTagSet), independent of white space, comments and chunking of character data."},
  {"property": "C41", "status": "proved", "theorems": ["Verif.C41_unknown", "Verif.C41_attribute", "Verif.C41_form"], "note": "Unknown elements (element names without dots, see C42), missing or malformed attributes, empty words and undeclared tags stop the import with an error; nothing after it is processed."},
  {"property": "C42", "status": "partial", "theorems": ["Verif.C42_partial", "Verif.not_C42", "Verif.C42_exact"], "note": "Proved for every well-nested token stream whose element names contain no dot; not_C42 is a concrete document with a dotted element name on which the parser dereferences nil. C42_exact: for arbitrary element names, the parser dereferences nil exactly when a token belongs by its dotted path to a grammeme, lemma or form that is not open."},
  {"property": "C43", "status": "proved", "theorems": ["Verif.C43", "Verif.C43_unlimited", "Verif.upToLemma_prefix"], "note": "With a lemma limit the import performs exactly the calls up to that lemma and stops with the controlled-stop error; without a limit it performs all."},
  {"property": "C44", "status": "partial", "theorems": ["Verif.C44_partial", "Verif.not_C44", "Verif.not_C44_nul", "Verif.room_runs", "Verif.doc_runs", "Verif.C44_exact"], "note": "End to end for every valid document with declared tags within capacity (document-level limits, no bound on lemmas or forms): import, Optimize, save and load succeed and the loaded index answers exactly as the document says. Missing because false: forms without any tag (not_C44, the empty-reading defect of C10) and queries starting with NUL (not_C44_nul, the defect of C18). C44_exact excepts nothing: it says for every word and string what is answered instead."},
  {"property": "C45", "status": "proved", "theorems": ["Verif.C45", "Verif.C45_up_to_date", "Verif.C45_check_failed"], "note": "Every environment (oracle for every call), every disk. Steps are recorded as events; the theorem ties them to the files written."},
  {"property": "C46", "status": "partial", "theorems": ["Verif.C46_partial", "Verif.not_C46", "Verif.C46_exact"], "note": "Violated: a download that broke off stays as the archive with a fresh time, and the next check says up to date (not_C46). Proved: the archive is untouched if the failure came before it was opened; otherwise the next check says required if the server's date is later than the failure or unreadable. C46_exact says exactly when the property fails."},
  {"property": "C47", "status": "proved", "theorems": ["Verif.C47"], "note": "Every index within the limits of the file format, every failure, every state of the disk passed on the way."},
  {"property": "C48", "status": "partial", "theorems": ["Verif.C48_partial", "Verif.not_C48", "Verif.C48_exact"], "note": "Violated when the archive is up to date and the unpacked file missing (not_C48). Proved when the unpacked file is there or the check failed. C48_exact says exactly when the property fails."},
  {"property": "C49", "status": "partial", "theorems": ["Verif.C49_exact", "Verif.C49_partial", "Verif.not_C49", "Verif.C49_node_partial", "Verif.not_C49_last"], "note": "C49_exact lists exactly the lines that crash the tool (negative tag and table numbers, unknown collections, node 0, strings of NUL in a loaded index); every other line is answered, also inside a session of any length with reloads (C49_partial). not_C49 and not_C49_last: the full property fails; the last node cannot be shown by number."},
  {"property": "C50", "status": "proved", "theorems": ["Verif.C50_decode_encode", "Verif.C50_encode_decode", "Verif.C50_injective", "Verif.C50_any", "Verif.C50_empty"], "note": ""},
  {"property": "C51", "status": "proved", "theorems": ["Verif.C51", "Verif.C51_any", "Verif.sharing_overwrites"], "note": "For every growth of append's arrays: importing a document of the format registers the grammemes and adds each form with the tags of its lemma followed by its own; for arbitrary tokens the growth makes no difference. sharing_overwrites shows the sharing is real."},
  {"property": "C52", "status": "partial", "theorems": ["Verif.C52_partial", "Verif.not_C52", "Verif.C52_sorts", "Verif.C52_index", "Verif.C52_exact"], "note": "Does not hold: a set new to a table is kept as the caller's slice (not_C52, for every table), and Index sorts the caller's slice (C52_sorts). Proved: sets stored before are not affected, and a set already present is not kept (C52_partial); the word index is not affected because it passes only slices of its own: with references, every history gives the same index as with values (C52_index). C52_exact: if the caller's slice shares no array with stored sets, the answer for the id is safe from all later writes of the caller if and only if an equal set was stored before or the set is empty."},
  {"property": "C53", "status": "proved", "theorems": ["Verif.C53", "Verif.C53_exact", "Verif.not_C53"], "note": "After a load, queries beginning with NUL are excluded: not_C53 is the witness that they must be, C53_exact what happens for every query."},
  {"property": "C54", "status": "proved", "theorems": ["Verif.C54", "Verif.C54_unknown", "Verif.C54_unknown_lookup"], "note": "Holds after loading too, for words beginning with NUL as well."},
  {"property": "C55", "status": "partial", "theorems": ["Verif.C55_partial", "Verif.C55_sound", "Verif.not_C55", "Verif.not_C55_update", "Verif.C55_exact", "Verif.C116_panic_exact"], "note": "Violated: panic if the archive cannot be examined for another reason than being missing (not_C55). Proved: everything else. C55_exact says exactly when the property fails."},
  {"property": "C56", "status": "partial", "theorems": ["Verif.C56_partial", "Verif.not_C56", "Verif.C56_exact"], "note": "Holds for words ending in an ASCII letter; violated for other letters (not_C56: the text is not valid UTF-8). After a load, words beginning with NUL are excluded (C18)."},
  {"property": "C57", "status": "partial", "theorems": ["Verif.C57_partial", "Verif.C57_succeeds", "Verif.not_C57", "Verif.C57_exact"], "note": "Violated if a write error shows only when the file is closed: the error of Close is dropped (not_C57). Proved otherwise, up to queries that start with NUL. C57_exact says exactly when the property fails."},
  {"property": "C58", "status": "partial", "theorems": ["Verif.C58_partial", "Verif.not_C58", "Verif.C58_exact"], "note": "Violated: the old file is truncated before the new one is written and removed on failure (not_C58). Proved for imports that fail before saving. C58_exact says exactly when the property fails."},
  {"property": "C59", "status": "partial", "theorems": ["Verif.C59_partial", "Verif.not_C59", "Verif.C59_exact"], "note": "Violated: the status of the answer is not looked at (not_C59). Proved: what is stored is the complete body of an answer."},
  {"property": "C60", "status": "partial", "theorems": ["Verif.C60_partial", "Verif.not_C60", "Verif.C60_exact"], "note": "Violated: only the default directory is ever made (not_C60, for every environment). Proved for the default path."},
  {"property": "C61", "status": "partial", "theorems": ["Verif.C61_partial", "Verif.not_C61", "Verif.C61_exact"], "note": "Violated: after a failed unpack the archive counts as up to date and Update returns nil with no index (not_C61). Proved when Update got as far as compiling."},
  {"property": "C62", "status": "partial", "theorems": ["Verif.C62_partial", "Verif.C62_exact"], "note": "End to end: from the server's answer to the answers of the loaded index; the bzip2 and XML decoders are parameters. Queries starting with NUL and words having a form without tags are excluded, as in C44 (where they are shown to be violations). C62_exact excepts nothing: it says for every word and string what is answered instead."},
  {"property": "C63", "status": "partial", "theorems": ["Verif.C63_partial", "Verif.not_C63", "Verif.C63_exact"], "note": "Holds for lines whose first word is not a command; words that are commands (t, s, n, v, r, e, tag, ...) cannot be searched (not_C63). After a load, lines beginning with NUL are excluded (C18)."},
  {"property": "C64", "status": "proved", "theorems": ["Verif.C64", "Verif.C64_any_file", "Verif.C64_rewritten", "Verif.C64_injective"], "note": "For indexes within the limits of the format (InLimits); C64_any_file and C64_rewritten need no such hypothesis and hold for every file that loads."},
  {"property": "C65", "status": "proved", "theorems": ["Verif.C65", "Verif.C65_markers"], "note": "Every byte string, every receiver."},
  {"property": "C66", "status": "partial", "theorems": ["Verif.C66_partial", "Verif.not_C66", "Verif.load_fails_256", "Verif.C66_tags_exact"], "note": "Holds within the limits of the format. The code violates it beyond: 256 tags are accepted, saved without an error, and the file cannot be loaded (not_C66, with a history of API calls). C66_tags_exact: within the other limits a saved index loads if and only if it has at most 255 tags."},
  {"property": "C67", "status": "partial", "theorems": ["Verif.C67_partial", "Verif.C67_kept", "Verif.C67_outcome", "Verif.not_C67", "Verif.not_C67_lookup", "Verif.C67_exact"], "note": "The code violates it: sections are stored as they are read, so a refused file leaves a mixture (not_C67: readings change; not_C67_lookup: words are lost and a node panics). Holds if the file is refused for its first marker or before the number of tags; the children maps and the number of words stay in every case. C67_outcome links the effectful model of reading to the functional one used elsewhere. C67_exact says for every failing file what is left."},
  {"property": "C68", "status": "partial", "theorems": ["Verif.C68_partial", "Verif.C68_bound", "Verif.not_C68", "Verif.C68_excess"], "note": "The code violates it: eleven bytes make it allocate any number of slots up to 2^32-1 (not_C68, for every number). Holds for every load that succeeds; for a failing one the excess is bounded (C68_bound). C68_excess: at most four slots per byte unless a count announces more elements than the file has bytes."},
  {"property": "C69", "status": "partial", "theorems": ["Verif.C69_partial", "Verif.not_C69", "Verif.C69_exact"], "note": "The code violates it for a file that announces no nodes (not_C69). Holds for every other file."},
  {"property": "C70", "status": "partial", "theorems": ["Verif.C70_args", "Verif.C70_partial", "Verif.not_C70_changed", "Verif.not_C70_late", "Verif.not_C70_unforced", "Verif.C70_exact"], "note": "The arguments and the status are settled for every argument list and environment; what status 0 says about the index is proved if the server answers alike both times it is asked and no write error shows only on closing. The witnesses show the code violating the claim otherwise, and that -f=false promises nothing. C70_exact assumes nothing about server or disk: status 0 means compiled, or no file written and one of two named reasons."},
  {"property": "C71", "status": "partial", "theorems": ["Verif.C71_partial", "Verif.C71_forced", "Verif.not_C71", "Verif.C71_exact"], "note": "Proved if the local clock is not behind the server's date of the archive; otherwise the code downloads and compiles everything again each time (not_C71). C71_exact says exactly when the property fails."},
  {"property": "C72", "status": "proved", "theorems": ["Verif.C72", "Verif.C72_reload", "Verif.C72_exit", "Verif.C72_ends"], "note": "Whole program modelled: initial load, lines, reload, exit status. C72_ends needs the lines not to be among those that crash the tool (Crashes, exact by C49_exact)."},
  {"property": "C73", "status": "partial", "theorems": ["Verif.C73_partial", "Verif.C73_known_partial", "Verif.C73_serial_partial", "Verif.not_C73_crash", "Verif.not_C73_lost", "Verif.not_C73_wiped", "Verif.C73_exact"], "note": "False of the code: AddToNode has no lock. Witnesses: a schedule ending in Go's fatal concurrent map error (not_C73_crash); a schedule without overlapping map accesses in which a second child is entered over the first (not_C73_lost); one in which a new empty map of children is put over the map an added word is in, although the common beginning was known (not_C73_wiped). Proved for every schedule without the fatal error: returned nodes spell their words, calls finish, old words keep their nodes, nothing foreign is found; if all common beginnings are known and already go on, nothing is lost; non-overlapping calls equal the sequential ones. C73_exact: an added word is found under the returned node iff neither that node nor a node above it was forgotten at some moment (hidden by another child or a new map, or entered into a map no longer in use). NewChild is one atomic step here (its inside: C37). After a load, words beginning with NUL are excluded (C18)."},
  {"property": "C74", "status": "partial", "theorems": ["Verif.C74_partial", "Verif.C74_answer", "Verif.not_C74_tags", "Verif.not_C74_children", "Verif.not_C74_sets", "Verif.not_C74_variants", "Verif.not_C74_registered"], "note": "Holds for the readings returned by TagSets: any assignments and appends to them, between any calls, leave the index as the calls alone lead to, for every growth policy. False in general: Tags, GetChildrenIDMap, TagSetIndex and Variants return the index's own data (four witnesses), and registering a tag on an older answer of Tags overwrites a newer tag of the index."},
  {"property": "C75", "status": "partial", "theorems": ["Verif.C75_tables", "Verif.C75_readings_partial", "Verif.C75_tags_partial", "Verif.not_C75_number", "Verif.not_C75_case", "Verif.C75_readings_exact", "Verif.C75_tag_exact"], "note": "set tables / set table: full. var and set NUMBER: every word without an empty reading (an empty reading hides the others, see C10). tag NAME fails for names that are numbers or 'count' and for names that differ in case only. C75_readings_exact excepts nothing; C75_tag_exact says exactly when a tag is found by its name."},
  {"property": "C76", "status": "partial", "theorems": ["Verif.C76_partial", "Verif.not_C76", "Verif.not_C76_halfway", "Verif.C76_exact", "Verif.C76_numbered"], "note": "Proved for every history of calls within capacity (including reloads of its own files). False for arbitrary files that load: not_C76 gives a file where Optimize panics, and one where it panics only if debug messages are printed. Missing: nothing else; the full statement is refuted. C76_exact: the loaded files (at most 65536 collections) on which Optimize panics without debug messages are characterised; C76_numbered: with the messages too it succeeds when nodes with readings carry their own places."},
  {"property": "C77", "status": "proved", "theorems": ["Verif.C77", "Verif.C77_load", "Verif.C77_size", "Verif.C77_lookup", "Verif.C77_growth"], "note": "The layout is specified on its own in Spec/Layout.lean (lists and numbers, no model types except the character type); C77 for every saved file of every history, C77_load for every valid file whoever wrote it. C77_load excepts queries starting with NUL, which C18 and C22 treat."},
  {"property": "C78", "status": "partial", "theorems": ["Verif.C78_partial", "Verif.C78_import_partial", "Verif.C78_several", "Verif.C78_twice_partial", "Verif.not_C78", "Verif.C78_exact", "Verif.C78_first"], "note": "Partial because the code violates it: what is shown for a word with an empty reading depends on the first reading attached to any word (not_C78, cf. C10). Everything else in the statement is proved for all pairs of histories and documents; words starting with NUL are excepted after a reload (C18). C78_exact says for every word exactly when the two orders show the same readings; C78_first: only words with an empty reading, and only if the first one-tag readings differ."},
  {"property": "C79", "status": "partial", "theorems": ["Verif.C79_stored", "Verif.C79_reading_partial", "Verif.C79_children", "Verif.C79_map_partial", "Verif.C79_nodeMap_partial", "Verif.not_C79_map", "Verif.not_C79_reading", "Verif.C79_map_exact", "Verif.C79_nodeMap_exact"], "note": "Partial because the code violates it: the text of a map with two to nine entries depends on the order of visiting (not_C79_map), and readings with commas in tag names can have equal texts (not_C79_reading). Proved: stored sets, tables, collections; readings with names of four bytes; the tool's listing; maps of at most one or at least ten entries. C79_map_exact: the text of a map of characters is independent of the order exactly for at most one or at least ten entries."},
  {"property": "C80", "status": "partial", "theorems": ["Verif.C80_search", "Verif.C80_tags", "Verif.C80_tag", "Verif.C80_text_partial", "Verif.not_C80", "Verif.not_C80_text", "Verif.C80_tags_exact", "Verif.C80_lemma_exact", "Verif.C80_text_exact", "Verif.C80_grammeme_partial", "Verif.C80_grammemes_exact", "Verif.not_C80_grammeme"], "note": "Search, tags and tag proved for all lists; the code panics on nil categories, and texts are ambiguous when words contain commas (witnesses) C80_tags_exact, C80_lemma_exact and C80_grammemes_exact say exactly when the calls panic; C80_text_exact exactly when two forms have one text."},
  {"property": "C81", "status": "partial", "theorems": ["Verif.C81_loader", "Verif.C81_distinct", "Verif.C81_domain_partial", "Verif.C81_resolve", "Verif.not_C81_domain", "Verif.not_C81_root", "Verif.C81_domain_exact", "Verif.C81_domain_same"], "note": "Loader files and resolving proved for all paths; domains only with plain names: '..' leaves the data directory, and the root is refused (witnesses). Symbolic links and Windows paths are not modelled C81_domain_exact: where the data of a domain is, whatever the names."},
  {"property": "C82", "status": "partial", "theorems": ["Verif.C82_partial", "Verif.C82_exact"], "note": "Excepts lines that are commands (C63), lines starting with NUL (C18) and forms without tags (C44), for which the code fails: not_C63, not_C44, not_C44_nul. C82_exact excepts only commands: it says for every word and string what is answered instead."},
  {"property": "C83", "status": "partial", "theorems": ["Verif.C83_partial", "Verif.C83_answers_partial", "Verif.not_C83", "Verif.C83_exact", "Verif.C83_exact_same"], "note": "Comments inside the text of a grammeme name are excepted: the decoder delivers the name in two pieces and only the last one is kept (not_C83: NO<!-- -->UN becomes UN). C83_exact says what is imported instead, for every document: the last piece of each name."},
  {"property": "C84", "status": "partial", "theorems": ["Verif.C84_partial", "Verif.C84_padded", "Verif.C84_node_partial", "Verif.not_C84", "Verif.C84_exact", "Verif.C84_printed", "Verif.C84_printed_var"], "note": "False of the code for set numbers from 8 to 99: they are printed with leading zeros and read as octal (not_C84; C84_padded says exactly what happens). Also excepted: the last node (not_C49_last), words with an empty reading (not_C10_hidden). C84_exact covers every word and every way a number of a collection or set is shown. C84_printed and C84_printed_var start from the bytes on the screen: the numbers cut out of what set and var print, typed again, make the tool print the same (in hexadecimal unless the number is negative)."},
  {"property": "C85", "status": "proved", "theorems": ["Verif.C85", "Verif.C85_reports"], "note": "The rounding of float64 in Duration.Seconds is not modelled; it is exact at whole seconds and monotone."},
  {"property": "C86", "status": "partial", "theorems": ["Verif.C86_partial", "Verif.C86_serves_partial", "Verif.not_C86", "Verif.C86_exact"], "note": "C86_partial: in every reachable state of the disk a loaded index is what saving and loading makes of an index built from a text that ended properly and was imported without an error, the text being the beginning of what the beginning of an answer unpacks to. C86_serves_partial: if the answers are archives of documents of the format within capacity (possibly cut off) or do not unpack at all, the index answers exactly as an offered document, or it is that of the empty document. Missing: completeness. not_C86: after an error page the next update reports success and leaves an index without words. C86_exact: an index with a tag or with any word that is found is always that of a complete offered document; the index without tags and words is the only exception."},
  {"property": "C87", "status": "proved", "theorems": ["Verif.C87", "Verif.C87_checks"], "note": "Every environment and disk; the calls are numbered, so that the two examinations of a file may be answered differently."},
  {"property": "C88", "status": "proved", "theorems": ["Verif.C88", "Verif.not_C88_names"], "note": "Names of tags of another length can make two nodes print alike: not_C88_names. What the readings and the children are is said by C75 and C49."},
  {"property": "C89", "status": "proved", "theorems": ["Verif.C89", "Verif.C89_in_place", "Verif.C89_cells", "Verif.C89_no_loss", "Verif.C89_insertion"], "note": "for every algorithm that uses only Len, Less and Swap and sorts lists of numbers; insertion sort is shown to be one"},
  {"property": "C90", "status": "partial", "theorems": ["Verif.C90_partial", "Verif.C90_moment_partial", "Verif.C90_known_partial", "Verif.C90_one_writer_partial", "Verif.C90_exact", "Verif.C90_serial_partial", "Verif.not_C90_crash", "Verif.not_C90_wiped", "Verif.C90_race_exact", "Verif.C90_safe_partial"], "note": "False of the code, in two ways: one addition and one lookup can end in the fatal error for concurrent map access (not_C90_crash), and, without any such access, a lookup can replace the map of children an addition has just filled by an empty one, so that the word added is lost (not_C90_wiped). Proved for all histories, threads and schedules that do not end in the fatal error: what was there stays and is found, nodes returned spell their words, calls return, failed lookups name a letter that was not there; exactly the words below a forgotten node are lost (C90_exact); where nothing is forgotten lookups answer as of a moment of the call (C90_moment_partial), in particular for words that go well together (C90_known_partial) and for one goroutine that adds beside others that look up words already there (C90_one_writer_partial). Calls under a mutex behave as the sequential ones (C90_serial_partial). Exactly which calls can end in the fatal error is C90_race_exact; where none can, everything holds in every schedule (C90_safe_partial). After a load, words beginning with NUL are excluded (C18)."},
  {"property": "C91", "status": "partial", "theorems": ["Verif.C91_unambiguous", "Verif.C91_set_exact", "Verif.C91_set_partial", "Verif.C91_var", "Verif.C91_node_exact", "Verif.C91_tag_exact", "Verif.not_C91"], "note": "Exact replies for every text. Grammar of numbers from the Go language specification. var holds in full. Violated: set and node cut the number to 32 bits, so set 4294967296 shows the set 0 and node -4294967295 the node 1; the last node is refused; tag -1 and set table -1 crash."},
  {"property": "C92", "status": "partial", "theorems": ["Verif.C92_race_exact", "Verif.C92_ends", "Verif.C92_safe_partial", "Verif.C92_quiet_partial", "Verif.C92_first", "Verif.C92_same_word", "Verif.C92_new_tag", "Verif.not_C92"], "note": "The property is false (not_C92: two words tagged at the same time, one is left with the other's reading in every later answer, no error). Proved: an exact condition for a data race, for every index, every list of calls and every complete schedule; calls that do not meet are safe and as if made in any order, for later calls too; questions, lookups that find their maps, known tags and readings as some word has them never meet; first taggings, the same word, and new tags always do."},
  {"property": "C93", "status": "partial", "theorems": ["Verif.C93_exact", "Verif.C93_partial", "Verif.C93_room_partial", "Verif.not_C93"], "note": "The property is false (not_C93: the word abcdefg is tagged while a node below it is made; both calls succeed, the word has no reading but is counted). C93_exact: for every storage, any number of goroutines, every schedule and every choice of the run-time, a reading is lost exactly if the nodes move while AddTagSet holds its pointer. The tables of tag sets and collections are C92's subject; here a call's collection is any function of the one found."},
  {"property": "C94", "status": "partial", "theorems": ["Verif.C94_words", "Verif.C94_partial", "Verif.C94_untagged_partial", "Verif.C94_sound", "Verif.not_C94", "Verif.not_C94_blank", "Verif.not_C94_optimize", "Verif.C94_exact"], "note": "False as stated (not_C94: a crash; not_C94_blank: readings or tags missing; not_C94_optimize: readings of another word). Proved: the file always loads and has the words of the moment its nodes were read; a word not tagged between the first read and the read of its node has its readings; in every case (without Optimize) no foreign reading is shown. The calls of the other goroutines are atomic in this model. C94_exact: exactly when the loaded word crashes and when its readings are right, in terms of what was attached by which moment."},
  {"property": "C95", "status": "partial", "theorems": ["Verif.C95_is_partial", "Verif.C95_lookup", "Verif.C95_kinds", "Verif.C95_save", "Verif.C95_save_fails", "Verif.C95_load", "Verif.C95_foreign", "Verif.not_C95_tagSet", "Verif.not_C95_runes", "Verif.not_C95_from", "Verif.not_C95_cut", "Verif.not_C95_missing", "Verif.C95_empty", "Verif.C95_inside", "Verif.C95_section", "Verif.C95_save_tags"], "note": "Proved: recognition for every call but TagSet; texts of lookups of strings exactly; kinds; saves exactly; recognition of failed loads. False, with witnesses: TagSet's error is recognised as nothing; runes that are not characters share a text; a lookup from a missing id reads like a lookup of the word 'no item: N'; a file cut off at its beginning and after its first section gives the same error; a missing and a damaged index file cannot be told apart with errors.Is. The texts of the binutils library are a parameter. After a load, lookups of words beginning with NUL are excluded (C18). A load that stops inside the contents of a section names the section (C95_inside, C95_section); what additions and lookups say of an empty word is exact (C95_empty)."},
  {"property": "C96", "status": "partial", "theorems": ["Verif.C96_counted", "Verif.C96_lookup", "Verif.C96_lookup_from", "Verif.C96_lookup_exact", "Verif.C96_word", "Verif.C96_add", "Verif.C96_readings", "Verif.C96_tag_partial", "Verif.C96_tag_grows", "Verif.not_C96", "Verif.C96_refused"], "note": "Steps, not time: rounds of loops and recursive calls; sorting, copying of strings and growth of slices are not counted. C96_counted: the counted functions compute what the functions of the model compute. Lookups (C96_lookup, from any node C96_lookup_from; failing ones exactly in C96_lookup_exact), words of nodes, additions and readings cost what their argument or answer costs. Attaching a reading does not (not_C96): C96_tag_partial bounds it by the different readings and the different sets of readings ever used (nothing else of the dictionary), C96_tag_grows shows that a new reading is compared with every different reading of that size."},
  {"property": "C97", "status": "partial", "theorems": ["Verif.C97_partial", "Verif.not_C97", "Verif.readable_of", "Verif.C97_same"], "note": "Proved for indexes whose tag names have four bytes without line ends and whose words have no line ends; not_C97 shows that a word with line ends can make one line look like two. What is logged (tag, search, reload, errors) is not part of the standard output. C97_same: the half that equal things shown give equal bytes holds for all indexes."},
  {"property": "C98", "status": "partial", "theorems": ["Verif.C98", "Verif.C98_inventory", "Verif.C98_optimize", "Verif.C98_content_partial", "Verif.C98_least", "Verif.not_C98", "Verif.not_C98_unoptimized"], "note": "The length after Optimize is given exactly for every history (C98: an empty reading counts as the first one-tag reading, see C10). Equal lengths for equal content and minimality are proved when there are no empty readings; with empty readings they fail even after Optimize (not_C98). Without Optimize the length depends on the order (not_C98_unoptimized)."},
  {"property": "C99", "status": "partial", "theorems": ["Verif.C99_partial", "Verif.C99_later", "Verif.not_C99_text", "Verif.not_C99_later", "Verif.C99_exact", "Verif.C99_reference"], "note": "All histories within capacity, words of Unicode characters, any further calls. Missing: words with characters that are no text (not_C99_text), readings that TagSets hides because of an empty reading (not_C99_later), leading NUL after a reload, and copies that need more than 65536 intermediate sets of readings. C99_exact: within capacity, a dictionary has a copy that answers the same if and only if its words are text.  C99_reference has no exceptions: it compares with the same program run on the reference implementation."}
]}
