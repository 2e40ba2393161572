PLAN={}
def plan(s):
    for l in s.strip().split("\n"):
        a,b=l.split("|",1)
        for i in a.split(","): PLAN[i.strip()]=b.strip()
plan("""
C01,C02,C04|Byte-list encoder/decoder, json_skip with its level counter, the find functions; structural induction on documents with a continuation.
C03|json_compare walking two encodings; it is simulated by a comparison of trees, then the order laws follow by induction.
C05|Byte-level escape/unescape and the parser of strings; list induction.
C06|3-byte groups, 4-character groups, the decode table of 128 entries (reads past it are ub); bit arithmetic and induction by groups.
C07|Nibble printing and parsing; per-nibble lemma on the fixed layout.
C08|Byte-level row with header, size and offset table widths; induction on columns.
C09|Lexicographic fold of column comparisons on stored rows; list induction.
C10,C11|Pages with binary search and split, red-black tree of pages; invariant over all histories, refinement to a sorted association list.
C12|Slots with empty/deleted/row, two stores, incremental rehash; histories; witnesses of violations, and the fragment in which it is a map.
C13,C14|Merges of per-partition iterators; witnesses, and the exact result for the other cases by induction on steps.
C15,C16|Merge iterator of layers, binary search over regions; induction over sources and over the search interval.
C17,C48,C49,C52|Pages, buckets, free lists, snapshot mode; invariant over operation histories; restart from the written pages.
C18,C19|Statements over several indexes with the undo log; invariant on (indexes, log), reverse induction on the log.
C20,C47|Prepared transactions and watermarks of a partition; histories of decisions; cursors between them.
C21,C22|Executor groups, queue and attach; inductive invariants over all histories of send/ready/commit.
C23,C24,C25|Files as byte lists, append with failures at any byte, rotation, cursor, truncation; induction over appended records, cut-point lemma.
C26|Catalog, heap files and log replay with lsn skipping; simulation between the lost and the recovered state over histories.
C27|Merging of row changes into log records and decoding; the flattened log is the history.
C28,C29,C30|State machine over lock/unlock events; inductive invariant; order argument for cycles.
C31|Ranges of part_mgr_create and the mapping array; arithmetic.
C32|Sorted list of ids; list induction.
C33|The LIKE matcher (first version of the model); superseded in scope by C70.
C34|Overflow-checked arithmetic on 64 bits.
C35|Names of files and their parsing; decimal round trip.
C36|File set with system calls as steps, a crash between any two; invariant over all runs.
C37|wal_slots and wal_gc; which files survive.
C38,C39,C40|Numbers as JSON and as text: single precision storage, decimal digits, checks of the parsers.
C41,C42,C43,C44|Values to rows: hash equality of three routes, narrowing, key prefixes, updates of columns.
C45,C46|Scans in both kinds of index while rows change between steps; invariant of iterator and index.
C50|Index build over a partition concurrent with DML.
C51,C53,C54|Sequences of DDL, locks and restarts; state machines with witnesses.
C55,C56,C57,C58|Whole-system histories of DDL, DML, checkpoint, cleaning, crash and restart over the Recover model.
C59,C60,C61|Sets, sort, union of partition results, limit/offset push down; list permutation and sortedness.
C62,C63|Group-by hash table and aggregates over partitions; fold over rows against counting/summing lists.
C64,C65,C66|Conditions in three-valued logic, IN/ANY/ALL/EXISTS, comparison operators per pair of types, against truth tables and orders on values.
C67|Index path choice (start and stop conditions) and the scan it runs; equals the filter over all rows.
C68,C69|JSON update functions on encodings, against set/unset on trees.
C70|LIKE as written over UTF-8 characters, against an inductive matching relation.
C71|String functions on bytes against functions on lists of characters.
C72|Day numbers with C division, against a calendar of valid dates and the next day.
C73|Intervals: text, fields, arithmetic with C division and wrap-around.
C74,C75,C76|Timestamps: fields of gmtime/mktime by the calendar, text, arithmetic, truncation; linear arithmetic over the fields.
C77|Binary search of timezone_match with explicit reads; loop invariant.
""")
plan("""C78|Sequence with the two steps of a sync as separate steps, rows, heap files and log records; invariant over all histories.""")
plan("""C79|The two stacks of the parser over a token list, with its recursion (fuel that provably suffices), against an inductive grammar of precedence levels and a printer with the fewest parentheses.""")
plan("""C80|The lexer over bytes (digits, symbols, names with the keyword table, quoted strings, comments), against an inductive relation between texts and token lists; composed with C79 for whole expressions.""")
plan("""C81|Two logs, the streamer, requests and sessions as a transition system with explicit failures; the prefix is an invariant of all histories that keep four conditions, each of which is shown to be needed by a counterexample the code allows.""")
plan("""C82|The readahead buffer with pushback and the reader of http.c over a stream cut into arbitrary pieces; the reader's view (pending bytes) is an abstraction that each operation respects; induction over the messages.""")
plan("""C85|The open-addressing table with NULL for free and deleted slots; chains invariant shared with the hash index; induction over the registrations.""")
plan("""C83|Tokens as bytes through base64url, the JSON parser and decode_obj; HMAC is a parameter; the cache is the table of C85; an invariant over all histories says where each cache entry came from; the specification of a valid token mentions only JSON values and base64.""")
plan("""C84|uri.c over bytes, the string options as a map by name; an address is a record with a printer (RFC 3986 percent-encoding) and a list of assignments; one lemma for each part, composed.""")
plan("""C86|The compiler's register map and emitted code, the machine's registers with buffer ownership and jumps; the meaning of an expression is a recursive function over values; a simulation, one lemma per form of expression, by induction over the tree.""")
plan("""C87|The loops over the arguments with the comparison of values of C60; the order of the specification is defined by type; invariant of the loop.""")
plan("""C88|The scan compiler (nested tables, patched jumps, LIMIT/OFFSET counters) on top of the expression compiler of C86, and the machine with cursors and a result set; the meaning is nested loops over lists of rows; simulation by induction over the tables and, within, over the rows; a second theorem turns nested loops into filter, drop, take and map.""")
plan("""C89|The catalog as lists of addressed records, every DDL statement with the undo entries it logs, commit and abort as folds over the log; each statement is shown to be undone by its entries in any catalog with the same objects, composed over the log; the five ways it fails are counterexamples.""")
plan("""C90|Unique names as an invariant of all reachable catalogs, kept by every statement, commit action and rollback; the loops of DROP and RENAME DATABASE are computed exactly; the meaning of statements is stated on lookups.""")
plan("""C91|Writers as JSON trees, readers on bytes (decode_obj and the loops), composed with the proved JSON text round trip, base64 and UUID codecs; the re-creation of the objects by induction over the lists, uniqueness of names from C90.""")
plan("""C92|A statement as clauses over expressions; resolving of labels and positions, both planners, and every plan command run on rows, on top of the unions of C59-C61 and the aggregation of C62-C63; the answer is defined clause by clause without plans; proved by cases over the plans.""")
plan("""C93|The writers of output_json.c over the proved JSON printer; an independent inductive grammar of RFC 8259 relates values and texts; each writer appends the text of the document or hits the limit; the printed text is in the grammar by induction over the value.""")
plan("""C94|The parser on bytes over the proved lexer of C80 and JSON parser of C39; literals, lists and rows of the language as separate relations of texts and values; each reader is shown to consume exactly the text and give its value, by induction over columns and rows; the requests of csend_shard by induction over the rows.""")
plan("""C95|The compiled SET list (ordered insertion, type checks), row_update and the scan loops over the B-tree of C10 and C45; a row is the list of its values; expressions are functions of the row; the meaning is stated per column and per row without order or cursors; simulation by induction over the rows under the tree invariant, and over histories.""")
plan("""C96|The reader on bytes over the lexer and the proved parse_value of C94; records, lines and bodies of the three formats as separate inductive relations of texts and rows; each reader consumes exactly the text and gives its rows, by induction over columns, members and lines; for texts in no format, the shape of any row that is taken.""")
plan("""C97|Every access to shared memory is a step of a transition system with one program counter per sender and one for the task; histories of sends, slots and messages handed over; three inductive invariants (ring contents and slot ownership, reference counts and messages in flight, sleep flag and eventfd) over all reachable states.""")
plan("""C98|The timer array, the cached time and the phases of the main loop as a transition system with a real clock; qsort is any function that gives the sorted permutation; one invariant over all histories (sorted, each sequence number once, deadline = start + interval - age of the cached time); the ways it fails are explicit runs.""")
plan("""C99|The directory as names and inodes, contents as bytes behind inodes, backups as registered listings; every change of files by the server is a step of a transition system, as are other backups; one invariant over all reachable states (links and wal files of a listing keep their bytes or a prefix), then induction over the requests of a restore; the ways it fails are explicit runs.""")
plan("""C100|The separator on bytes, with the character before the position; statements are a separate inductive relation over the tokens of the SQL lexer of C80, with the nesting of blocks and CASE; the separator passes over each token as the lexer reads it, by the kinds of tokens, then induction over the relation; reading a prefix made of whole lines does not depend on the lines that follow, which gives all divisions into lines; the ways it fails are explicit inputs.""")
plan("""C101|The eight tables as they are in the file (2048 numbers), the loops with alignment, and the CRC32 instruction as the manual of the processor defines it (bit reflection and division of polynomials); one step of the shift register is linear, so the tables are steps of one byte (all entries checked by the kernel) and blocks of bytes are steps on one number; the remainder is the only one, by division; damage shifts out to a number below 2^32 on which each step is injective.""")
plan("""C102|Options as typed cells, the file as bytes written by the proved JSON exporter and read by the proved parser; one theorem says that what is saved is read, by induction over the options; users as a document in an option; the server is memory and a directory, statements and starts are steps, one invariant over all histories (the file in the directory is the state in memory); each write of a file is a list of directories, one per byte, and the crash points are its elements.""")
plan("""C103|The file as bytes; writer and reader function by function, with the layout of regions, index and header as fields of given widths; the compression library is a pair of functions that are inverse; one invariant of the writer over the rows (regions cut so far, their references, the bytes of the file), then each field is found where the reader looks; composed with the search of C16 for queries. What fails without compression, beyond 4 GB and on opening is proved as well.""")
plan("""C104|Coroutines named by their memory, with the lists of the manager, the flags of each coroutine, the signal and the waiter of each event; every function is a step of a transition system, what coroutines compute in between is arbitrary; one invariant over all histories in which the callers keep to six rules that release builds do not check; turns by induction over the history on the ready list, kills and joins over numbers that are never used twice. Without the rules, and in three cases within them, explicit runs show what goes wrong.""")
plan("""C105|The entries with their lists and reference counts over the proved lock manager of C28 to C30; the spinlocked parts are atomic steps, jobs stop between them; one invariant over all histories ties jobs, entries, counts and lock records, other locks of the server are arbitrary steps on other relations.""")
plan("""C106|The block, the position and the int arithmetic of buf.h; the meaning is a separate relation on texts with unknown places, without capacities; simulation by induction over histories, with a potential argument for the copies. References, counters and the eight caches as a transition system with one invariant. A write that overflows int and the limit of the cache that is never applied are explicit theorems.""")
