# Formal model of mabel in Lean 4 - design

## 1. What this is

`/verif/lean/Verif` holds a machine-checked model of the Python package `/repo/mabel`.
The model is shallow: each Python function is a total Lean function that mirrors the
source branch by branch, with exceptions as values (`Except PyErr a`, or an explicit
`Outcome`), mutable objects as state records, storage as an append-only log of effects,
and concurrency as interleavings of atomic steps.

Layout

| folder | content |
|---|---|
| `Verif/Py` | the fragment of the Python runtime that is used (str methods, slices, stable sort, int(), truthiness) |
| `Verif/Model` | the model of the code; each definition cites file and lines |
| `Verif/Spec` | small independent specifications used in the statements |
| `Verif/Lemmas` | helper lemmas |
| `Verif/Props` | the property theorems `Cnn_...`, each with a non-vacuity example beside it |

Where the code does **not** have the property the user relies on, the negation is proved
from a concrete witness (`Cnn_..._fails`) and the strongest true fragment that I could
prove is kept with the suffix `_partial`; the disagreement is recorded in section 5.

## 2. Trusted base

* Lean 4.33.0's kernel, and (only for statements) the elaborator's reading of the text.
* Axioms: every property theorem depends on at most `propext`, `Classical.choice` and
  `Quot.sound`; no axiom is added; there is no `sorry`, `admit`, `native_decide`,
  `bv_decide`, `implemented_by` or `unsafe` anywhere. The per-theorem list printed by
  `#print axioms` is in section 6.
* The correspondence between the Lean model and the Python text. That is by reading: the
  code was not run. Each definition's comment says which lines it models and what it
  simplifies.

Modelling conventions (simplifications that apply everywhere)

* `str` is `List Char` (a Lean `Char` is a unicode scalar value: lone surrogates, which
  Python allows, are not represented). `str.lower`/`upper` are parameters or ASCII-only
  where stated.
* `float` is not modelled; numbers are `Int` or `Rat` as stated at each definition.
* Hash functions (`hash`, `xxh3_64_intdigest`, `CityHash64`) and compressors/serialisers
  (orjson, zstandard, pyarrow) are parameters. Theorems quantify over them; where a theorem
  needs injectivity or `decode (encode x) = x` that is an explicit hypothesis.
* Logging, warnings, memory limits, and object destructors run by the garbage collector
  are not modelled unless a definition says so.
* The lock objects in `BlobWriter.commit`, `WriterPool.*` and `DatabaseWriter.*` are
  created inside the call, so they exclude nobody; they are modelled as no-ops. The module
  level lock of `stream_writer.py` is real and makes append, finalize and each attendant
  pass atomic.

## 3. Plan per property

* **C01 Batch writer neither loses, duplicates nor reorders records** - Model `BlobWriter.text_append/arrow_append/commit` and `Writer.append/finalize` as transitions over (stored blobs, buffer). Invariant by induction over the operation list: stored ++ buffered = accepted.
* **C02 Blob size limit and no empty blobs** - Same model with record sizes; invariant `size(buffer minus last) <= max` for text and the parquet variant.
* **C03 append reports the pending record count** - Same model; `records_in_buffer` = length of pending in every reachable state; return value stated through stored log length.
* **C04 A rejected record has no effect** - Writer state machine with an abstract validator; run(ops) = run(ops without rejected appends), as equality of final states and stored effects.
* **C05 A failed store loses nothing and duplicates nothing** - Storage failures as an oracle (list of booleans) consumed by each store; text: exactly-once invariant; parquet: `_fails` witness + partial.
* **C06 Completion marker policy** - BatchWriter.finalize as a function on (seen_failures, records, always_complete); iff theorem over all histories.
* **C07 Crash consistency of frames** - Effect trace of a run; theorem over every prefix of the trace.
* **C08 Stream writer stores every record exactly once per target under any schedule** - State machine: append(identity, record), attendant pass (arbitrary subset of identities evicted; then the real nomination), finalize; invariant per identity by induction over the schedule.
* **C09 At most one open writer per target** - Pool invariant: identities Nodup; get_writer hit/miss characterisation.
* **C10 Eviction picks only least recently used writers and only when over capacity** - `nominate` with Python slice semantics; LRU + cap theorems; `_fails` witness for below-capacity eviction.
* **C11 Invalid stream records are diverted to BACKOUT and never read back as data** - StreamWriter.append path selection with abstract validator; blob listing filter.
* **C12 Field values cannot redirect stream writes** - `{..}` placeholder scan, product and sequential `replace`; separator count preserved, for all records and templates.
* **C13 Database writer batches without loss** - DatabaseWriter state machine, invariant inserted ++ wal = appended, batches <= 100.
* **C14 Database writer finalises once** - Same machine with repeated finalize/destructor.
* **C15 Cursor resume is exact** - Cursor + serial read loop as a step machine; theorem: delivered k, save, reload, run = drop k of full run.
* **C16 Cursor serialisation round-trips** - bit map -> padded bytes -> hex text -> bytes -> bits; round trip for any length.
* **C17 Malformed cursors are rejected** - load_cursor error branches; bit map shorter than the blob list is an IndexError.
* **C18 Blob listing is sound, ordered and duplicate free** - get_list_of_blobs as pure function of the listing; sublist/sorted/Nodup theorems.
* **C19 Only the newest complete frame is read** - Frame selection loop; equals spec 'greatest complete and not ignored'; `_fails` for prefix-named frames.
* **C20 Segment folders do not bleed into one another** - Segment folder loop; `_fails` witness with hour=1 / hour=10; partial under prefix-freeness.
* **C21 Date ranges are covered completely and once** - datetime as validated fields with an hour successor; date_range as list; proved equal to the closed interval, ascending, no repeats.
* **C22 What a batch writer completes, a reader for that date reads** - Composition of writer path and reader listing.
* **C23 Freshness limit is honoured** - Step back loop with an arbitrary oracle `day -> blobs`.
* **C24 A corrupt blob does not corrupt the others** - ParallelReader over blobs with lines that may raise.
* **C25 Text formats round-trip from writer to reader** - split on newline / splitlines of concatenated serialisations.
* **C26 Multi-process reading delivers each blob once** - Queue protocol as a transition system with s workers; safety invariants over all interleavings, and termination measure.
* **C27 Dataset access restriction** - Prefix check as Bool function; iff theorem.
* **C28 Parameter validation** - validate wrapper as a decision function; iff theorem. Types are not checked by the code, recorded.
* **C29 take(n) returns the first n records** - itake over lists; equal to take for n>0; `_fails` at 0.
* **C30 Filtering keeps exactly the matching records** - Three filter paths = List.filter.
* **C31 distinct removes exactly the repeats** - distinct with abstract hash; sublist/idempotent/first; `_fails` for completeness (concatenation).
* **C32 sort_and_take equals sort then take** - Bounded cache loop over a stable insertion sort; refinement to sort-then-take.
* **C33 Storage classes are interchangeable** - Batch split/concat; disk lines; equality to list.
* **C34 get_items returns the items at the requested positions** - get_items per storage class.
* **C35 Set fingerprint is order independent** - xor fold over canonical serialisation; permutation invariance.
* **C36 Column summaries agree with their definitions** - folds against spec (sum, least, greatest, union).
* **C37 Projection** - select as map.
* **C38 Group counts add up** - GroupBy._map + aggregate; COUNT = filter length.
* **C39 Group sums and averages** - SUM/AVG; `_fails` for SUM with AVG on the same column.
* **C40 Group minima and maxima** - MIN/MAX; `_fails` with zero; partial for values all non-zero.
* **C41 Different group values form different groups** - groups; `_fails` for concatenated keys; partial with injective key.
* **C42 DNF filter semantics** - evaluate over a tree type; iff theorems.
* **C43 Expression parsing respects precedence** - Recursive descent parser on token lists with fuel discharged by length; print/parse round trip.
* **C44 Expression evaluation is boolean-faithful** - evaluate_recursive over trees; truthiness homomorphism.
* **C45 Expression to DNF conversion preserves meaning** - to_dnf; `_fails` witness; partial for the fragment where it is right.
* **C46 LIKE follows SQL LIKE** - regex built from the pattern and a matcher for that regex fragment; equals an independent LIKE relation; `_fails` for newline.
* **C47 SQL dataset names cannot escape** - validate_dataset over strings, equivalent to a predicate on the characters; that no other name leaves the parser goes by an invariant of its loop.
* **C48 SQL clause parsing** - SqlParser from the text on: comments, the split at keywords, the loop. Clauses are an inductive type, written as text; the split and the loop are shown to read them back by induction on the statement. The loop counts its turns, so that never ending is failing for every count; a turn that uses no part repeats for ever, which decides ending.
* **C49 SQL pipeline order and LIMIT** - SqlReader from the text on: the statement is read (C48), the select list too (C62), and then the reader, GROUP BY, HAVING, the renaming, SELECT, DISTINCT, ORDER BY and LIMIT run one after the other on generators. The result is specified by filter, map, a table of groups (C39, C41), first of each, a stable order and take; each stage is shown to do its part. Where the code does something else, a _fails theorem says what it does.
* **C50 ISO date parsing** - parse_iso on strings with Python int(); round trips and validity.
* **C51 Duration parsing** - regex for durations as a scanner; round trip.
* **C52 Path splitting and date templating** - PurePosixPath split, build_path, date_format.
* **C53 sanitize** - filter.
* **C54 Suggestion distance is the edit distance** - matrix DP = recursive spec = minimal edit script length.
* **C55 Random helpers stay in range** - mod arithmetic; base64 length.
* **C56 Flattening nested records keeps every leaf** - flatten on nested values; `_fails` for lists; partial list-free.
* **C57 HTML output is escaped** - character substitution chain; absence and injectivity.
* **C58 Histogram accounts for every value** - bin index arithmetic over rationals.
* **C59 Collected sets partition the records** - defaultdict of lists.
* **C60 Inline string and number functions** - slices.
* **C61 Paging a stream keeps every record** - page loop; `_fails` drops the last record.
* **C62 Computed columns** - inline_evaluator.py from the text on: the split, `build`, `evaluate_field` with what it writes into its tokens, `__call__`, `fields`; the functions are a parameter. Select lists are an inductive type laid out as text with any white space; the split and `build` are shown to read them back by induction on the list, and evaluation by mutual induction. That evaluation leaves nothing behind goes by a normal form of tokens.
* **C63 Reading XML keeps what the document says** - etree_to_dict and strip_namespace over a tree type; the facts of the document against the facts of the dictionary, as permutations, by induction on the tree; `_fails` for text after elements, order and namespaces.
* **C64 Tokeniser preserves quoted text** - Tokenizer splitting and quote rejoin.
* **C65 Text table row limit** - row loop.
* **C66 Failing storage never duplicates stream records, and losses are reported** - Stream state machine with a failure oracle; no duplicates for every schedule; `_fails` for reporting.
* **C67 A stored set can be read repeatedly** - storage classes of DictSet with the position of their iterators.
* **C68 A streamed record goes to the folder of its own values** - placeholder substitution against a separate specification.
* **C69 A partition filter selects exactly the named segment** - filter on the segment folder of listed blobs.
* **C70 Without a filter nothing is dropped** - line reader over decoded records.
* **C71 A filter decides on the stored record** - order of select and filter in the reader.
* **C72 What is written is what is read** - composition of batch writer, naming, listing and reading models.
* **C73 A grouping can be asked more than once** - GroupBy over a one-shot iterator; `_fails` for every second question.
* **C74 What is not an expression is refused** - the parser against a grammar over the labels of tokens: soundness by induction on the bound; `_fails` for what is ignored.
* **C75 An expression has no memory** - the tree after an evaluation is modelled; same value, by induction on the tree and on the number of evaluations; `_fails` for the empty name.
* **C76 Comparisons compare the values** - the operators of expressions on integers, texts, lists and null, from the record to the truth value; `_fails` for texts that read as numbers.
* **C77 Every record of a blob is found, whatever its format** - texts of lines as an inductive relation, against the line splitters, by induction; ZIP as the concatenation of its files.
* **C78 Record helpers change only what they say** - record helpers over association lists; lookups after each, by induction.
* **C79 What is stored in object storage is listed and fetched** - the service as a list of objects (store replaces by bucket and name, list by prefix); runs as folds of stores; prefix of a joined name equals list prefix of its folders, so a listing is that of a disk with the same files and C22 carries over.
* **C80 A set that is not stored hands out each record once** - the shared source and the derived sets as a tree of generators with states; commands derive, pull or drain; sublist invariant over histories, and a chain of generators equals the composition of what each means.
* **C81 A sample is a fraction of the set** - sampling with its random values; the number kept summed over all sequences of random values, by induction; witnesses for other fractions.
* **C82 The types of columns are described** - types over the first records for values of any kind; a relation says what a description should be.
* **C83 A writer stores where it was told and is refused when it was told wrong** - construction as a function of its arguments and the clock; a relation says which dataset, partitions and date are asked for; names by splitting and joining folders, listing by the theorems for frames.
* **C84 A run that dies part way leaves readers what they had** - a file system of folders, names and contents with three primitive steps; `commit` and a whole batch run as lists of steps, and the disk after any number of them; the files present are shown to be a history of runs whose last is complete exactly when its marker is there, and the theorem about readers and histories (C22) applies to both; writing in place gives the counterexample.
* **C85 The threaded reader hands out every record once and returns** - reader, threads and both queues as a transition system driven by a schedule (who steps next); an invariant says where each blob is (received, being read, queued, not yet sent) and what has been sent of it; a second one, for schedules without failures, counts the messages that end threads; absence of deadlock by a measure of the messages still to be moved; counterexamples are schedules, and for the reader that never returns an invariant of everything that can follow.
* **C86 Across any history of batch runs that may die, readers see the last finished run** - the writer's state machine (C01), its blob names (C22) and the steps on the disk (C84) put together as one function from a disk and a list of runs, each with its own stopping step, to a disk; induction over the runs with the invariant of C84 (which files there are, and of which runs) and that nothing is ever in a later run's way; the reader by the argument of C72.
* **C87 A reader of a range of days sees, day after day, what the last finished run of each day wrote** - the invariant of C86 for each day at once, with a lemma that a run for one day changes nothing beneath the folder of another; the dates visited by C21; the listing of a range is the sorted union of the listings of its days, and because the names of a day begin with the day's folder, and the folders ascend with the days, sorting puts the days one after the other.
* **C88 SQL statements are answered about exactly what finished runs stored** - the reader that a statement opens is given the disk that C87's runs have left; C87 for libraries in which all records count as true gives the records of the blobs before they are filtered, and C49's theorems apply to these records; an exception on opening passes through every stage of a statement.
* **C89 readers deliver exactly what was appended to a stream writer and finalized, and at any moment a first part of it** - C08's serialisation of the threads gives, for each target, blobs that hold a first part of what was routed to it; the names of the blobs (C22, C83) and the steps of storing them in many folders (a lemma about any number of blobs, stopped after any step) give the files; the listing of a day (plain, or C20's segments for the hours) is put into the order of the names, which is that of the appends; a blob that is cut short is read to its first records.
* **C90 a reader with a partition filter delivers exactly the records with that value** - C89's chain with another layout of folders: the path of a record is filled in at the date's places and keeps the field's (a lemma on replacing in a text with a place of another name), C68 gives its targets, one for each value, and C69 the names that the filter keeps. What is routed to the folder of a value is what was appended with it, once for each record that has one such value. Where the code lacks the property there is a run of the model for each case.
* **C91 what several processes stream into a dataset is all read** - each process is C89's; the steps that the disk takes are any interleaving of first parts of their steps. A lemma on the disk says that what one process does is not disturbed by what the others do elsewhere: the files of each are as they would be without the others, since identifiers keep them apart. What is listed is then merged in the order of the identifiers, and the share of each process in it is what C89 says of it alone. A process that is started again is the case in which the identifiers of one all come before those of the next.
* **C92 a caller who reads a growing dataset in sittings is given every record once** - the cursor model of C15 with a listing for each sitting. The bit map of a cursor saved over a list of blobs is, up to the next multiple of eight, the bit map of the same cursor over a longer list of which the first is a prefix, so C15's invariant of what is still to be delivered carries over from one listing to the next. For a stream the listing of one folder of a day at any moment is worked out from C89's lemmas and is a prefix of the later ones since identifiers grow; what is in a blob does not change once it has been written.
* **C93 the error being handled can be rendered in full** - errors are objects in a heap that refer to one another; the loop that follows them has a number of rounds, and comes to its end for some number exactly if there is a finite story (an inductive relation of the specification) from the error back to a first one. The lines for each place are worked out by induction over the tracebacks; str.splitlines is modelled in full, textwrap.fill and os.path.abspath are parameters of which two properties are used.
* **C94 words for colours in a text are replaced by their codes** - str.replace as elsewhere, folded over the table; the specification is a relation that reads a text once from the left. Each further replacement keeps the relation, with one more word in the table, since codes begin with a character that is in no word; without codes the text is taken apart into characters and words.
* **C95 the context of a job** - dictionaries as lists of pairs with dict-update semantics; the file system (what glob gives, in whatever order), the JSON library and the truth of values are parameters.
* **C96 a reader that is given records delivers each once** - the null reader's listing and bytes in the place of a disk's; C87's theorem on ranges of days, generalised to any storage, gives the listing.
* **C97 a reader of a range of days on object storage** - the writers' commits of C79 folded over what a run stores, cut off after any object; the storage simulates a disk on which the same runs, stopped at the matching places, were made (C87), so what is listed and read there is what is read here; on MinIO the listing has the same members, and the serial reader is shown to read each name once however often it is listed.
* **C98 reading while runs are under way** - the steps of the runs (C86) in any order in which each takes its own; as each run has a folder of its own, the disk after any number of steps has the same files with the same contents as if the runs had been one after the other, each to where it is (`merge_solo`, used for both orders), so C87 tells what is listed; what is listed is of runs that are done, whose files do not change any more until they are read.
* **C99 jobs split over writers that share a frame** - runs with the same frame whose steps interleave; the files of a part that no other part stores are as if it were alone (`merge_shared`; all parts store the same marker), so the frame holds the blobs of all of them, and the marker as soon as one is done; what a reader lists is then known from the history of frames (`cycle_history`), in the order of the names of the blobs; a witness for a frame that is marked by the first part that ends.
* **C100 readers with filters** - the reader's treatment of its `filters` argument on top of what C88 proves is stored; the verdict of a filter of lists is that of C42, conditions are those of C64 and C49; witnesses for filters that raise and for functions.
* **C101 programs with stored sets** - the storage objects with the generator each keeps, every method as a step of a program; the sets of a program agree with a list of lists that only deriving extends (an invariant); witnesses for loops, empty sets on disk and empty records in compressed memory.
* **C102 filters of a set** - dispatch on the kind of filter, with the expression that evaluating changes; the results reduce to the condition of the text (C64) and the DNF semantics (C12); the reader's route is C100.
* **C103 words and names** - `str.split` as a scan; the tokens are the one list of words the kept text consists of (an inductive specification that determines it); filters for names.
* **C104 names of blobs** - hexadecimal numbers as `format` writes them, the cached number of the process; order of numbers is order of texts of the same length; identifiers can be taken apart again; the hypotheses of C86-C92 follow.
* **C105 targets** - the tables of a project and what a commit does to them; rows are invariant over all sequences of calls of the writer model; no call raises unless a record is refused.
* **C106 functions by name** - the table of functions on the values of records; conversions, rounding and a stable insertion sort; the pipeline of C49 with this table.
* **C107 SQL on object storage** - the pipeline of C49 and C100 with the reader of C97 as its source of blobs; the bridge is that the blobs delivered are those of the last finished run of each day.
* **C108 Mean and variance** - the library keeps the number, the sum and the sum of the squares; the theorem is that this is the textbook variance, by algebra over an arbitrary list of fractions.
* **C109 Statements about streams** - C89 and C91 say what a reader delivers, C49 and C42 what statements and filters make of the records of blobs; the two are joined by the blobs that are found.
* **C110 Weeks** - the model counts as `date.isocalendar` does; the theorem compares it with the Thursday of the week.
* **C111 Remembered results** - a model of `functools.lru_cache` and the invariant that all that is kept are results of the function.
* **C112 Streams on object storage** - the blobs that the pool hands over are stored as objects by either service; the storage and a disk after the same blobs have the same files (`Alike`), and a reader depends only on which files are listed and what they hold (`open_same`, `delivered_same`), so the theorems follow from those for a disk, at the steps where a blob is complete.
* **C113 Wrapping texts** - `textwrap.fill` of CPython is modelled with its scanner for chunks and its loop over lines; chunks concatenate to the text and are never empty, so that each round of the loop takes characters away; the rest is invariants of the rounds.
* **C114 Loss of power** - what is left of a run is any choice of its files with any contents (`Remains`); it is a history with one more run (`left_holds`), to which C22 applies.
* **C115 Statements about streams on object storage** - C112 (what is delivered) composed with C49 and C42 (what statements and filters answer about it), through `cloudBlobs` of C107.
* **C116 Several processes on object storage** - C91 on a disk that holds only the files of these days, carried over to the storage: a mixture of uploads is a mixture of the steps on the disk in which each process is between two blobs, and both hold the same blobs, in the same order, in the folders of each day.
* **C117 A cursor and data that is written again** - the sittings: each disk shows the blobs of the last finished run (C86, with their names), and C92's composition of saved cursors. The replaced data: a cursor saved after `k` records has the read blobs as a prefix of the sorted list; loaded against other names the map marks as many of the first of those.
* **C118 Following a stream on object storage** - at each look the storage holds the blobs stored before and those stored by then; a disk with the same files (the bridge of C112) shows a reader the same blobs in the same order, because the listing is sorted and lists each blob once (a range of one day has one hour, for MinIO), so a sitting on the storage is a sitting on that disk; the composition of sittings is that of C92. What is stored at a look is a prefix of what is stored later.
* **C119 Following daily runs** - the names a reader is given for a day are those of the last finished run for it; one run more leaves the names of all days as they are or, if it finishes in turn, adds its names at the end, because all later days are empty; so the listing of each sitting is a first part of that of the next, and the blobs of a finished run stay readable with the bytes they had. The composition of sittings is that of C92. On object storage each look is a disk with the same files (C97).
* **C120 Runs on object storage that overlap** - each process is its inner writer and what it has still to store; a schedule says which of them stores its next object. Each stores the same objects whatever the others do, all of them have different names (day, second and blob name), so the storage is a permutation of that after the same runs one after the other, each stopped where it is; there C97 says which names are listed for a day and what they hold. The listing does not depend on the order of the objects, and an object that is stored stays.
* **C121 Split jobs on object storage** - the parts store objects in the same folder, and the same marker, which may be stored more than once but always alike; so the objects are those before and those each part has stored, whatever the order. A disk on which each of these files is written in one go, in that order, lists the same names and holds the same bytes; there C99 says what is read. What a reader opens and delivers depends only on which names are listed and what they hold.
* **C122 Files of sets on disk** - processes share a directory; a step of a process is asking for a name that is free, writing the file, removing it when the set is dropped, and removing all names it ever had when it ends. By induction over the history: every file that is new belongs to a set that is not dropped, names that were there at the start are never given, and, if processes do not share names, the file of a set in use holds its records and no other set in use has its name.
* **C123 Use after finalize** - after a finalize nothing is pending, and only a blob with records is stored, so calls that accept no record store none. Every call does the same whatever is in storage before, so what later calls store is what they would store in an empty storage from a writer with nothing pending; there C01's invariant says what it is.
* **C124 Numbers as dates** - `fromtimestamp` is modelled as stepping from 1970-01-01 by whole days with C60's day arithmetic and setting the time from the remainder; that the seconds of the result are right follows from the ordinal that arithmetic gives, and uniqueness from seconds determining the date.

## 4. Not modelled

Google/MinIO client libraries beyond a list of objects (store, list by prefix, fetch; no retries or
credentials), BigQuery, pyarrow, orso DataFrames (a list of rows with an
abstract size), logging, IPython display, the file system beyond folders, names and contents written byte by byte
(no links, permissions, full disks or lost caches), process start
and shared memory, wall-clock time (an arbitrary value each time it is read).

Functions of `/repo/mabel` that no definition of the model stands for (every other function is cited, file
and lines, by the definition that models it):

* `adapters/database/null_writer.py` (prints), `adapters/null/null_writer.py` (keeps nothing), `utils/resource_monitoring.py`, `utils/timer.py`,
  `utils/ipython.py`, `data/internals/dumb_iterator.py`, `logging.py`, `version.py`: whole files.
* `data/internals/dictset.py`: `standard_deviation`, `to_pandas`, `__repr__` (its tables are C57);
  `__getitem__` is `select`. `data/internals/collected_set.py`: the two `__repr__`.
* `data/readers/internals/inline_functions.py`: `NOW`, `HASH`. `inline_evaluator.py`: iterating over an
  `Evaluator`, and its `fields`.
* `data/readers/internals/decompressors.py`: `parquet` and `csv` (libraries). `parallel_reader.py`:
  `expand_nested_json` (nothing calls it; the `flatten` under it is modelled).
* `data/writers/internals/blob_writer.py`: `_normalize_arrow_schema` (pyarrow), the `manifest` dictionary and
  the `metadata` and `index_on` arguments (stored or ignored, never read). `writer_pool.py`: `close` and
  `__str__` (nothing calls them).
* `utils/dates.py` `parse_iso` of numpy and pandas values; `data/internals/group_by.py` over
  floats and dates.
* `utils/parameter_validator.py`: `add_rule` (nothing calls it). `__init__` methods that only keep their
  arguments, abstract methods, and `__del__` methods that only log.

## 5. Places where the code and the property disagree

Each is proved from a concrete witness (theorems `_fails`), or noted as the reason a claim is partial.

* **C05 A failed store loses nothing and duplicates nothing** (partial) - full for text formats; for parquet an append that raised keeps its record (C05_parquet_retry_fails) Witnesses: `Mabel.Writer.C05_parquet_retry_fails`.
* **C06 Completion marker policy** (partial) - full with working storage; a failure signalled to a finalize whose store raised is forgotten Witnesses: `Mabel.Writer.C06_failure_forgotten_fails`.
* **C10 Eviction picks only least recently used writers and only when over capacity** (partial) - The LRU half holds. The other half is false of the code: writer_pool.py:88 slices with a negative bound below capacity (C10_none_within_capacity_fails); C10_below_capacity gives the exact number evicted. Witnesses: `Mabel.Stream.C10_none_within_capacity_fails`.
* **C11 Invalid stream records are diverted to BACKOUT and never read back as data** (proved) - Without placeholders a valid record goes to the templated path itself; with placeholders it gains no folder, but a valid record whose field value is the word BACKOUT does land in a BACKOUT folder (proved as a failure). Witnesses: `Mabel.Targets.C11_valid_never_in_backout_fails`.
* **C13 Database writer batches without loss** (partial) - Nothing is lost, repeated or reordered whatever fails; batches hold at most 100 records while no insert fails, but one record more for every append after a failed insert, and retrying a failed append repeats the record (both proved as failures). Witnesses: `Mabel.Database.C13_batch_size_fails`, `Mabel.Database.C13_retry_fails`.
* **C14 Database writer finalises once** (partial) - Holds when the end of scope meets no failing insert and nothing is appended after finalize; otherwise the records never reach the finalizer or are lost (proved as failures). Witnesses: `Mabel.Database.C14_late_record_fails`, `Mabel.Database.C14_scope_failure_fails`.
* **C15 Cursor resume is exact** (proved) - For distinct, non-empty blob names whose hashes differ (stated as hypotheses; the hash is a 64-bit digest). Any number of sittings of any lengths. The _fails theorems show the hypotheses are needed: a hash collision or a blob listed twice makes the reader repeat records. Witnesses: `Mabel.Cursor.C15_collision_fails`, `Mabel.Cursor.C15_listed_twice_fails`.
* **C17 Malformed cursors are rejected** (partial) - Missing parts and maps that are not hexadecimal are refused; a map with fewer bits than blobs is refused. False in general for larger sets: the map is padded to whole bytes, C17_padding_fails shows a cursor misread after one blob is added. Witnesses: `Mabel.Cursor.C17_padding_fails`.
* **C18 Blob listing is sound, ordered and duplicate free** (partial) - Soundness and order hold for every storage. No duplicates: without by_ partitionings, or with segment names none of which begins another; fails otherwise (hour=1 / hour=10). Witnesses: `Mabel.Listing.C20_bleed_fails`.
* **C19 Only the newest complete frame is read** (proved) - Every combination of complete, ignored and incomplete frames, with and without segments, for frame names none of which begins another (true of the names the writer makes). Ambiguous user-given names do fail: C19_ambiguous_names_fails. Witnesses: `Mabel.Listing.C19_ambiguous_names_fails`.
* **C20 Segment folders do not bleed into one another** (partial) - Holds when no segment name begins another; fails for hour=1 and hour=10. Witnesses: `Mabel.Listing.C20_bleed_fails`, `Mabel.Listing.C20_bleed_hides_fails`.
* **C21 Date ranges are covered completely and once** (proved) - A reader visits exactly the whole hours of the closed range, once, ascending, for bounds in either order and given in any way. Side finding: a reader whose end is a plain date stops at that day 00:00, although date_range itself covers the day. Witnesses: `Mabel.Dates.C21_reader_last_day_fails`.
* **C22 What a batch writer completes, a reader for that date reads** (partial) - Exact for every history, for relative datasets on disk whose folder names do not themselves look like frames, partitionings, markers or BACKOUT. Two runs that start within the same second share a frame, so an unfinished one is read with a finished one (proved as a failure). Witnesses: `Mabel.Naming.C22_same_second_fails`.
* **C23 Freshness limit is honoured** (partial) - Everything holds except that a day holding only blobs of unknown kinds ends the search (proved as a failure). Witnesses: `Mabel.Listing.C23_unreadable_day_fails`.
* **C25 Text formats round-trip from writer to reader** (partial) - jsonl, flat, zstd and parquet round-trip; the `text` format does not: a blob is read back as one piece Witnesses: `Mabel.Blobs.C25_text_format_fails`.
* **C26 Multi-process reading delivers each blob once** (partial) - Exactly-once delivery proved for every schedule without a crashed worker that ends normally; every run is finite; with at least as many blobs as workers and no worker giving up, every maximal run ends normally. The code can hang (late worker; single blob), loses a blob silently when a worker crashes, and turns None into text: proved as _fails. Witnesses: `Mabel.Parallel.C26_late_worker_fails`, `Mabel.Parallel.C26_single_blob_fails`, `Mabel.Parallel.C26_crash_fails`, `Mabel.Parallel.C26_none_becomes_text_fails`.
* **C28 Parameter validation** (partial) - Exact characterisation of accepted calls. Incompatibilities declared by the rules an argument brings (an inner reader's RULES) are not enforced (proved as a failure). Witnesses: `Mabel.Validator.C28_brought_incompatibility_fails`.
* **C29 take(n) returns the first n records** (partial) - True for n >= 1. The code returns every record for n = 0 (and negative n), proved as C29_take_zero_fails. Witnesses: `Mabel.Props.C29_take_zero_fails`.
* **C31 distinct removes exactly the repeats** (partial) - Exact up to the key the code compares; full when the hash separates the records. Different records are merged for every hash function, proved as the _fails theorems. Witnesses: `Mabel.Props.C31_columns_collide_fails`, `Mabel.Props.C31_missing_collides_fails`, `Mabel.Props.C31_names_ignored_fails`.
* **C32 sort_and_take equals sort then take** (proved) - Non-negative n and values comparable by a total preorder. The order of numbers, texts and datetimes is that of the small specification Spec/Order. For values that cannot be compared the code refuses a set in memory but may answer one that is not (witness C32_mixed_fails). Witnesses: `Mabel.SortTake.C32_mixed_fails`.
* **C33 Storage classes are interchangeable** (partial) - True for non-empty sets of non-empty records. Empty records vanish from compressed memory and an empty set cannot be read from disk, proved as _fails. Witnesses: `Mabel.Props.C33_empty_records_fails`, `Mabel.Props.C33_empty_set_fails`.
* **C34 get_items returns the items at the requested positions** (partial) - Exact for lists; ascending order in compressed memory; ascending without repeats on disk; nothing at all for sets in memory. A set over an iterator (not stored) gives nothing, or raises if some record has not exactly two fields. Witnesses: `Mabel.Props.C34_get_items_memory_fails`, `Mabel.Props.C34_get_items_order_fails`, `Mabel.Props.C34_get_items_negative_fails`, `Mabel.Props.C34_get_items_unstored_fails`.
* **C36 Column summaries agree with their definitions** (proved) - The theorems of Mabel.Props are about whole number columns. The theorems of Mabel.Summaries are about numbers of any kind, texts and datetimes (floats as fractions), and say when sum, min and max raise. Witnesses: `Mabel.Props.C36_null_fails`.
* **C39 Group sums and averages** (partial) - Any list of aggregations in which, averages counting as a sum and a count, none repeats. False with SUM or COUNT next to AVG of the same column (doubled), and AVG of a column that is null in a whole group raises KeyError. Sums are added with 28 digits: the theorems ask that the magnitudes add up to less than 10^28, and beyond it fails.  Sums of two great numbers are answered with 28 digits, rounded half to even (C39_rounded). Truth values are summed and averaged as one and nought, also among numbers. Witnesses: `Mabel.GroupBy.C39_sum_with_average_fails`, `Mabel.GroupBy.C39_count_with_average_fails`, `Mabel.GroupBy.C39_average_of_nulls_fails`, `Mabel.GroupBy.C39_great_sum_fails`.
* **C40 Group minima and maxima** (partial) - Whole numbers unless zero is the answer and other values are present; texts (for MIN unless the empty text is mixed with others). False with zero: max(0,-1) is answered as -1. Truth values count as one and nought (so False is lost as zero is). Witnesses: `Mabel.GroupBy.C40_max_zero_fails`, `Mabel.GroupBy.C40_min_zero_fails`.
* **C41 Different group values form different groups** (partial) - Columns of one kind and, with several columns, fixed width in all but the last, and no hash collision. False in general: ('ab','c') and ('a','bc') are one group, null and 'None' are one group. Witnesses: `Mabel.GroupBy.C41_run_together_fails`, `Mabel.GroupBy.C41_kinds_fails`.
* **C43 Expression parsing respects precedence** (partial) - Every way the grammar allows to write an expression, as a list of tokens, is parsed back to that expression, at any depth; a list of tokens is the text of one expression only; parsing ends for every list of tokens. False for comparisons with NULL: whatever follows one is dropped, and in parentheses it is refused. Witnesses: `Mabel.Expression.C43_null_fails`, `Mabel.Expression.C43_null_in_parentheses_fails`.
* **C44 Expression evaluation is boolean-faithful** (partial) - The value of an expression is the boolean combination of the values of its comparisons, also from its tokens; it raises exactly when a comparison does. False that it never raises: LIKE without a text on the right and MATCHES with a text that is not a regular expression. Witnesses: `Mabel.Expression.C44_like_number_fails`, `Mabel.Expression.C44_like_missing_fails`, `Mabel.Expression.C44_bad_regex_fails`.
* **C45 Expression to DNF conversion preserves meaning** (partial) - Holds for alternatives of numeric comparisons and pairs of them. False for NOT (raises), three parts of an AND (refused), an AND of alternatives (accepts too much), texts (compared with quotes) and missing fields. Witnesses: `Mabel.Expression.C45_not_fails`, `Mabel.Expression.C45_three_fails`, `Mabel.Expression.C45_and_of_ors_fails`, `Mabel.Expression.C45_text_fails`, `Mabel.Expression.C45_missing_fails`.
* **C46 LIKE follows SQL LIKE** (partial) - SQL LIKE for texts without line feeds, with str.lower a parameter. With line feeds wildcards do not match them and one at the end is ignored; a null is compared as the text None. Witnesses: `Mabel.Like.C46_percent_line_feed_fails`, `Mabel.Like.C46_final_line_feed_fails`, `Mabel.Like.C46_null_fails`.
* **C48 SQL clause parsing** (partial) - Proved for statements whose clauses have no SQL keyword as a word in them, in any order, with comments, any white space and case, and subqueries. ORDER BY without ASC or DESC before another clause never ends, nor does a text that begins with anything but a clause; a keyword in quotes begins a clause; comments on lines that end with CR LF stay. Witnesses: `Mabel.Sql.C48_order_fails`, `Mabel.Sql.C48_leading_fails`, `Mabel.Sql.C48_quoted_fails`, `Mabel.Sql.C48_crlf_fails`.
* **C49 SQL pipeline order and LIMIT** (partial) - From the text of the statement: columns, computed columns, WHERE, GROUP BY, HAVING, DISTINCT, ORDER BY and LIMIT over a dataset, and over another statement (without WHERE and functions), for select lists and records that are answered rightly; the _fails theorems are the others. For every statement: LIMIT, no duplicates with DISTINCT, sortedness. SELECT * without WHERE drops records without fields (C49_star_empty_fails). ORDER BY a column whose values cannot be compared raises TypeError. For GROUP BY and aggregations the fields that are grouped or aggregated hold absent values, truth values, whole numbers and texts; other fields can hold anything. Witnesses: `Mabel.SqlReader.C49_subquery_where_fails`, `Mabel.SqlReader.C49_subquery_call_fails`, `Mabel.SqlReader.C49_limit_zero_fails`, `Mabel.SqlReader.C49_order_star_fails`, `Mabel.SqlReader.C49_order_cap_fails`, `Mabel.SqlReader.C49_order_unselected_fails`, `Mabel.SqlReader.C49_raise_fails`, `Mabel.SqlReader.C49_shadow_fails`, `Mabel.SqlReader.C49_swap_fails`, `Mabel.SqlReader.C49_count_nothing_fails`, `Mabel.SqlReader.C49_bare_not_fails`, `Mabel.SqlReader.C49_star_empty_fails`.
* **C50 ISO date parsing** (proved) - All three layouts, every valid date, with Z, offset (ignored) and fraction; any value returned is a valid date. A value that is returned is read from the numbers in their places (C50_read_from); these are read as Python reads integers, so some texts that are not ISO dates are accepted, against the documentation (C50_not_iso_fails). Witnesses: `Mabel.Dates.C50_not_iso_fails`.
* **C52 Path splitting and date templating** (partial) - Canonical relative paths with at least one folder, and all templates and dates. Re-joining fails for a file directly in the bucket (folder part "./"), shown by C52_file_in_bucket_fails. Witnesses: `Mabel.Paths.C52_file_in_bucket_fails`.
* **C56 Flattening nested records keeps every leaf** (partial) - Proved for nested records of any depth without lists, and for a list of plain values. Otherwise with lists the code loses leaves: list members are named by position only. Witnesses: `Mabel.Records.C56_lists_fails`, `Mabel.Records.C56_list_of_dicts_fails`, `Mabel.Records.C56_separator_fails`.
* **C57 HTML output is escaped** (partial) - Texts, dictionaries and lists of them can never add markup, and a browser shows exactly the text. Other objects (bytes, say) are put on the page as they are, and a list with a number in it makes the table fail. C57_table says what a browser shows of lists, dictionaries and other objects too. Witnesses: `Mabel.Display.C57_objects_fails`, `Mabel.Display.C57_list_of_numbers_fails`.
* **C58 Histogram accounts for every value** (partial) - With two bins or more each bin counts exactly the values in its interval, intervals ascend and the counts sum to the number of values. The last bin is always empty, one bin raises ZeroDivisionError, and a small non-empty bin is drawn as empty. Missing: float rounding, as values are rationals in the model. Witnesses: `Mabel.Histogram.C58_last_bin_fails`, `Mabel.Histogram.C58_one_bin_fails`, `Mabel.Histogram.C58_drawn_empty_fails`.
* **C59 Collected sets partition the records** (partial) - Grouping, lookups, counts, aggregates, items and dedupe are proved for every set and column. Fails: looking up several collections raises KeyError, and count(None) cannot count the group of missing values. Values without floats. A stored set that has been read before, or is collected a second time, has nothing to collect (C59_after_reading_fails). Witnesses: `Mabel.Collected.C59_count_none_fails`, `Mabel.Collected.C59_several_fails`, `Mabel.Props.C59_after_reading_fails`.
* **C60 Inline string and number functions** (partial) - LEFT, RIGHT, MID, CONCAT, the date parts, ADDDAYS, DAYSDIFF, INTEGER/TRUNC, BETWEEN, RANDOM and BOOLEAN. Fails: RIGHT(x, 0) is the whole text, time parts of a date raise AttributeError, DAYSDIFF of a date and a datetime raises TypeError, INTEGER of odd numbers beyond 53 bits changes them. WEEK is C110, MD5 is C111; HASH is a library call and is not modelled. Witnesses: `Mabel.Functions.C60_right_zero_fails`, `Mabel.Functions.C60_date_of_date_fails`, `Mabel.Functions.C60_daysdiff_mixed_fails`, `Mabel.Functions.C60_integer_fails`.
* **C61 Paging a stream keeps every record** (partial) - Every record but the last is kept once, in order, in full pages. The code always loses the last record and fails on an empty stream. Witnesses: `Mabel.Paging.C61_last_record_fails`, `Mabel.Paging.C61_empty_fails`.
* **C62 Computed columns** (partial) - Proved for items that are fields, literals, * and nested calls of functions, with AS only on calls, in any layout. A name given with AS to anything but a call is ignored, * adds a field named *, aggregates give None, and texts with commas, parentheses or AS in them are taken apart. A constant (TRUE, FALSE, NULL, NONE) is computed but not among the reported fields. Witnesses: `Mabel.Evaluator.C62_alias_fails`, `Mabel.Evaluator.C62_star_fails`, `Mabel.Evaluator.C62_aggregate_fails`, `Mabel.Evaluator.C62_text_fails`, `Mabel.Evaluator.C62_constant_fails`.
* **C63 Reading XML keeps what the document says** (partial) - Everything but the text after an element is kept, each fact as many times, when names stay different without namespaces. Lost in general: text after an element, the order of elements with different tags, and the first of two elements whose tags differ only in the namespace. Witnesses: `Mabel.Xml.C63_tail_fails`, `Mabel.Xml.C63_order_fails`, `Mabel.Xml.C63_namespace_fails`.
* **C64 Tokeniser preserves quoted text** (partial) - The pieces of a statement concatenate to it; without quotes only white space is lost; a laid-out row of lexemes gives exactly its tokens, and its expression. False in general: runs of white space inside quotes collapse, what follows an unclosed quote is lost, quotes of one kind inside the other and dotted numbers next to words break tokens. Witnesses: `Mabel.Tokenizer.C64_unclosed_fails`, `Mabel.Tokenizer.C64_spaces_fails`, `Mabel.Tokenizer.C64_between_fails`, `Mabel.Tokenizer.C64_nested_fails`, `Mabel.Tokenizer.C64_dotted_fails`.
* **C65 Text table row limit** (partial) - HTML tables show every column for each of the first limit records, but all of them for limit 0. Text tables do so for records with the same fields in the same order only. Witnesses: `Mabel.Display.C65_order_fails`, `Mabel.Display.C65_missing_fails`, `Mabel.Display.C65_empty_name_fails`, `Mabel.Display.C65_html_zero_fails`.
* **C66 Failing storage never duplicates stream records, and losses are reported** (partial) - The first half holds; the second is false: finalize drops the exceptions of its commits. Witnesses: `Mabel.Stream.C66_loss_is_reported_fails`.
* **C67 A stored set can be read repeatedly** (partial) - Methods always see every record; a for loop sees nothing after any earlier complete read, misses the first record after first(), and raises for a set made from a list without storing it. Witnesses: `Mabel.Props.C67_second_loop_fails`, `Mabel.Props.C67_loop_after_first_fails`, `Mabel.DictSet.C67_list_loop_fails`.
* **C68 A streamed record goes to the folder of its own values** (proved) - Templates whose fixed text has no braces and whose field names have no braces. Two values that clean to the same text make the same target twice: C68_same_target_twice_fails shows the record is then stored twice in one folder, as the combinations are counted, not the folders. Witnesses: `Mabel.Targets.C68_same_target_twice_fails`.
* **C69 A partition filter selects exactly the named segment** (partial) - Exact for fields and values of letters, digits and white space; other characters are stripped, and then the filter is dropped or finds nothing (proved as failures). Witnesses: `Mabel.Listing.C69_underscore_ignored_fails`, `Mabel.Listing.C69_value_stripped_fails`, `Mabel.Listing.C69_prefix_hides_fails`.
* **C70 Without a filter nothing is dropped** (partial) - exactly the empty records are dropped Witnesses: `Mabel.Blobs.C70_empty_record_fails`.
* **C71 A filter decides on the stored record** (partial) - holds when the filter does not depend on what the select removes; fails in general, as the select is applied first Witnesses: `Mabel.Blobs.C71_filter_on_unselected_fails`.
* **C73 A grouping can be asked more than once** (partial) - False: the second aggregation of a grouping answers that there are no groups. The caller's list of questions is changed too, so asking the same of the same records again answers more than was asked, wrongly. Witnesses: `Mabel.GroupBy.C73_second_question_fails`, `Mabel.GroupBy.C73_same_list_fails`.
* **C74 What is not an expression is refused** (partial) - What is accepted begins with an expression of the grammar; tokens without an operator are refused. False: tokens after an expression are ignored, a call before a parenthesis is dropped, NOT is taken as an operand. Witnesses: `Mabel.Expression.C74_trailing_fails`, `Mabel.Expression.C74_call_dropped_fails`, `Mabel.Expression.C74_not_operand_fails`.
* **C75 An expression has no memory** (partial) - Evaluation rewrites the names in backquotes; it gives the same answer after any number of records unless such a name is empty or has backquotes inside. False for the empty name: the second record raises. Witnesses: `Mabel.Expression.C75_empty_name_fails`.
* **C76 Comparisons compare the values** (partial) - Integers, texts, LIKE, IS NULL and IN. False for a field whose text is that of a boolean, a number or a date: it does not equal that text. Witnesses: `Mabel.Expression.C76_number_text_fails`, `Mabel.Expression.C76_boolean_text_fails`.
* **C77 Every record of a blob is found, whatever its format** (partial) - JSON lines with any line ends, LZMA, ZIP with files of several formats, and a format given explicitly. False for ZSTD blobs whose last line has no line feed: the last record is dropped. C77_zip_damaged: a file inside a ZIP that its library cannot read ends the ZIP; the files before it are delivered as if the ZIP held only them. Witnesses: `Mabel.Blobs.C77_zstd_last_line_fails`.
* **C79 What is stored in object storage is listed and fetched** (partial) - Proved for datasets that are folders in a bucket whose last folder has no dot, on both services, for every history; on Google Cloud Storage a completed run must have a blob. Fails: an empty completed run on Google Cloud Storage is not seen; MinIO lists every blob once per date; a dotted last folder lists its neighbours; a whole bucket is looked for in 'partitions'. Witnesses: `Mabel.ObjectStore.C79_empty_run_fails`, `Mabel.ObjectStore.C79_minio_repeats_fails`, `Mabel.ObjectStore.C79_dotted_folder_fails`, `Mabel.ObjectStore.C79_whole_bucket_fails`.
* **C81 A sample is a fraction of the set** (partial) - A sample is always records of the set in order; its average size is the fraction of the set for 1, 1/2, 1/4, ... 1/65536 only. Fails: above 1/2 everything is kept, 2/5 keeps a half, a millionth keeps one in 65536, above 1 divides by zero, and so does 0 even for an empty set; -1/2 is taken as 1/2. Division is exact in the model. Witnesses: `Mabel.DictSet.C81_more_than_half_fails`, `Mabel.DictSet.C81_over_one_fails`, `Mabel.DictSet.C81_two_fifths_fails`, `Mabel.DictSet.C81_smallest_fails`, `Mabel.DictSet.C81_nought_fails`, `Mabel.DictSet.C81_negative_fails`.
* **C82 The types of columns are described** (partial) - Right for the columns of stored sets that have a value other than None; a column of None is 'mixed' instead of 'empty', and every column of a set that is not stored is 'mixed'. Witnesses: `Mabel.DictSet.C82_empty_fails`, `Mabel.DictSet.C82_unstored_fails`.
* **C83 A writer stores where it was told and is refused when it was told wrong** (partial) - Proved for datasets and partitions that are at least two folders, the last without a dot, and whose names do not look like frames, segments or markers. Not so: the blobs of a writer are hidden once a batch writer has stored anything for the same dataset and date; names that are to be refused are accepted; a date that is not understood becomes today; a dotted name without partitions goes elsewhere; batch writers ignore {datefolders} and raw_path. Witnesses: `Mabel.WriterInit.C83_frames_hide_fails`, `Mabel.WriterInit.C83_reserved_name_fails`, `Mabel.WriterInit.C83_bad_date_fails`, `Mabel.WriterInit.C83_dotted_name_fails`, `Mabel.WriterInit.C83_batch_datefolders_fails`, `Mabel.WriterInit.C83_batch_raw_path_fails`.
* **C84 A run that dies part way leaves readers what they had** (partial) - Batch runs are crash atomic for processes that die (for a computer that loses power see C114), for a run later than all in the history, in a folder with room for it. False for writers without frames: blobs are written in place, so a reader lists and reads a blob that is partly written. Witnesses: `Mabel.Disk.C84_store_atomic_fails`, `Mabel.Disk.C84_partly_written_fails`.
* **C85 The threaded reader hands out every record once and returns** (partial) - Exactly once and no deadlock are proved when there are at least as many blobs as threads and no thread crashes or gives up. False otherwise: with fewer blobs than threads the reader may never return; when a thread has given up or crashed, pages are lost without an error; and the last record of every blob is lost (C61). Witnesses: `Mabel.Threads.C85_returns_fails`, `Mabel.Threads.C85_everything_fails`, `Mabel.Threads.C85_error_fails`, `Mabel.Threads.C85_order_fails`.
* **C86 Across any history of batch runs that may die, readers see the last finished run** (partial) - Proved for histories of any length when no two runs start in the same second and the day's folder was empty at first; a run without valid records counts as come to its end if it is marked complete all the same (always_complete), and then there is no data. False without the first: a run in the same second as a finished one is read with it, even when it is stopped. Witnesses: `Mabel.History.C86_same_second_fails`.
* **C90 A reader with a partition filter delivers exactly the records with that value that were appended to a stream writer that partitions by the field** (partial) - Proved for values told apart by their letters, digits and white space (exactly the values, if they consist of these: C90_exact_partial), records without two values that are alike in this way, and names of fields of letters, digits and spaces that are not parts of the date. The code does not have the rest of the property: values with the same letters and digits are mixed, a record with two of them is delivered twice, a record whose value is BACKOUT is never delivered, one with an empty list is stored nowhere, the filter is dropped if the field's name has an underscore, and a field named like a part of the date is not partitioned by at all. Witnesses: `Mabel.StreamStorage.C90_alike_values_fails`, `Mabel.StreamStorage.C90_delivered_twice_fails`, `Mabel.StreamStorage.C90_backout_value_fails`, `Mabel.StreamStorage.C90_no_value_fails`, `Mabel.StreamStorage.C90_underscore_fails`, `Mabel.StreamStorage.C90_date_name_fails`.
* **C91 What several processes, or one that is started again, stream into a dataset is all read, whichever of them die** (partial) - Proved for processes whose identifiers for blobs differ (of any two, one comes before the other at the first character in which they differ) and are, in each process, in order of their time; with folders for the days, for the hours, and for the values of a field (with the limits of C90). The code does not see to it that they differ: two processes with the same number on machines that say they have the same address, or two blobs of one process between which its clock has not moved on, get the same name, and the second takes the place of the first. Witnesses: `Mabel.StreamStorage.C91_same_identifier_fails`, `Mabel.StreamStorage.C91_same_time_fails`.
* **C92 A caller who reads a growing dataset in sittings, with saved cursors, is given every record once** (partial) - Proved for blobs that are added after those that are there and up to the next multiple of eight in number, and for one day (or one value on it) to which one process streams, if at the moment of each sitting what has been handed over has been written. The code fails otherwise: a cursor saved with eight blobs is refused when there are nine; if a blob comes before those read, as one for an earlier day or of another process may, one blob is read again and another never; and a blob that is listed before it has been written in full is taken to have been read, so that the rest of it is never delivered. Witnesses: `Mabel.Cursor.C92_earlier_blob_fails`, `Mabel.Cursor.C92_ninth_blob_fails`, `Mabel.StreamStorage.C92_part_written_fails`.
* **C93 The error being handled can be rendered in full, whatever led to it** (partial) - What is rendered is proved for every graph of errors in which the errors that led to the one handled can be followed back to a first one (exactly then does it end), for textwrap.fill and os.path.abspath with the properties named Fills and Absolute. The code fails the claim otherwise: two errors each raised from the other make it never return; a local variable whose value has no text makes it raise; the type and message of an error are never shown; for one of the first three lines of a file a line 0 is shown with the text of the last line; and a space in a file name is shown as '=' in the bar.  textwrap.fill itself is modelled in C113, which shows that it has these properties. Witnesses: `Mabel.ErrorStack.C93_label_fails`, `Mabel.ErrorStack.C93_first_lines_fails`, `Mabel.ErrorStack.C93_circle_fails`, `Mabel.ErrorStack.C93_message_fails`, `Mabel.ErrorStack.C93_local_fails`.
* **C94 Words for colours in a text are replaced by their codes, and nothing else is** (partial) - With colours on, for every text. With colours off, for texts of which no opening brace is left; otherwise taking out one word can make another that is not taken out any more ({O{RED}FF} becomes {OFF}). Witnesses: `Mabel.Colors.C94_off_fails`.
* **C95 The context of a job has the caller's settings over those of its configuration file** (partial) - Full for what is in the context for each name. The rest fails: a file with a JSON list raises AttributeError, a caller that passes config=None has None under config, and of several files with the name the one read depends on the order in which they are listed. Witnesses: `Mabel.Context.C95_not_object_fails`, `Mabel.Context.C95_none_overrides_fails`, `Mabel.Context.C95_which_file_fails`.
* **C96 A reader that is given records delivers each of them once** (partial) - For datasets with a folder for each day the records are delivered once for each day of the range: so it holds for one day (the default) only. Witnesses: `Mabel.NullAdapter.C96_range_fails`.
* **C97 A reader of a range of days on object storage delivers the last finished run of each day** (partial) - For a serial reader from the start, on both services, for datasets that are not a whole bucket and whose last folder has no dot, and runs that are not marked complete without having stored anything (C79 shows that it fails for these). On MinIO every blob is listed once for each hour of the range: a reader that goes on from a saved cursor reads the blob it was in from its beginning, and several processes deliver each record once for each hour; both are shown. Witnesses: `Mabel.Cloud.C97_minio_resume_fails`, `Mabel.Cloud.C97_minio_parallel_fails`.
* **C98 A reader that reads while runs are under way gets whole runs only** (partial) - For all interleavings, with the listing of one folder a single step (different folders at different moments). A listing that takes its time can miss a blob that is stored before the marker and see the marker: part of a run is then delivered, which is shown. As in C86, runs of a day have to begin in different seconds (C86_same_second_fails). Witnesses: `Mabel.Overlap.C98_torn_listing_fails`.
* **C99 A job that is split over writers that share a frame is read as a whole** (partial) - Proved for the moments when every part has finalized and ended, and for all moments at which none is done. In between it is false: the first part that ends marks the frame as complete for all of them, and a reader then delivers what the other parts happen to have stored, even half a blob of a part that has died (C99_first_marks_fails); and a part that reports a failure is read with the others (C99_failed_part_fails). That a writer that is given the frame of another uses the same folder is C83_split_job. The names of the blobs of different parts have to differ (they hold the time and the process). Witnesses: `Mabel.Split.C99_first_marks_fails`, `Mabel.Split.C99_failed_part_fails`.
* **C100 A reader with a filter delivers exactly the matching records of the last finished runs** (partial) - Proved for filters that raise on none of the records. A filter that raises on a record silently hides the rest of the blob (C100_until_it_raises says exactly what is delivered, C100_raising_fails is a case with a record of another type), and a filter that is a function, or any object but a text, a tuple or a list, is silently not applied (C100_function_fails). What each predicate means is C42, what conditions mean C43, C44 and C76. Witnesses: `Mabel.SqlReader.C100_function_fails`, `Mabel.SqlReader.C100_raising_fails`.
* **C101 A stored set is what it was made from, whatever is done with it and its relatives** (partial) - Proved for every program and every method but loops: the answer depends on the records of the set alone. Loops go through all records only if the set was not used before (C101_loop_partial); a method that reads the set ends loops that are under way, and an inner loop takes the records of an outer one. The classes differ for sets without records (on disk they cannot be read) and for records without fields (compressed memory does not deliver them); C101_classes_partial is about all other programs. The JSON and compression libraries are taken to give back what they were given. Witnesses: `Mabel.Props.C101_reading_ends_loops_fails`, `Mabel.Props.C101_nested_loops_fails`, `Mabel.Props.C101_empty_on_disk_fails`, `Mabel.Props.C101_empty_records_fails`, `Mabel.Props.C101_take_moves_loops_fails`.
* **C102 Filtering a set keeps what the filter says, and the same as giving the filter to the reader** (partial) - Proved for texts whose condition is defined on the records, tuples that apply to the records and functions that do not raise. A filter of another kind is not refused: None comes back instead of a set. Where a filter raises, a set raises and a reader is silent. A reader without a filter drops empty records, so the two routes agree only if there are none. Witnesses: `Mabel.SqlReader.C102_other_fails`, `Mabel.SqlReader.C102_raising_fails`, `Mabel.SqlReader.C102_empty_record_fails`.
* **C103 The words of a text are its tokens, and safe names of fields keep what is safe** (partial) - Words that have only punctuation between them become one, letters outside ASCII are dropped, and different names of fields can have the same safe name. str.lower is a parameter. Witnesses: `Mabel.Text.C103_words_fails`, `Mabel.Text.C103_field_name_fails`.
* **C104 No two blobs get the same name, and names sort in the order blobs were stored** (partial) - Proved for clocks that move between the blobs of a process (and show years from 2006 to 2554); what the theorems about histories of runs and of streams ask of names follows (C104_run, C104_stream, C104_processes). If the clock stands still between two blobs the later replaces the earlier; if it is set back the order of the records changes; a process that is a copy of another (fork) remembers the number of the other. Witnesses: `Mabel.BlobIds.C104_fork_fails`, `Mabel.BlobIds.C104_clock_fails`.
* **C105 What a writer accepts is kept, whatever it writes to** (partial) - For disks and buckets see C72, C79 and C97. With BigQuery the code falsifies the claim: the bytes are dropped and nothing raises; the table is always `justin` of `users`, made without columns or expiration. The failures of the library itself are not modelled. Witnesses: `Mabel.BigQuery.C105_bigquery_fails`, `Mabel.BigQuery.C105_bigquery_table_fails`.
* **C106 Functions have the value SQL gives them, also where a field has none** (partial) - Absent values are handed through by the parts of dates, differences of dates and conversions to numbers; the functions of texts take the word None for them, and LEN, ROUND, SORT and BETWEEN raise, which silently ends the blob in a statement (C106_select_null_fails). Statements that use only functions with a value for every argument answer with every matching record. BETWEEN leaves the bounds out. DATE, TIME, NOW, HASH and RANDOM (WEEK is C110, MD5 is C111), ROUND to digits, and ADDDAYS of fractions of days are parameters; floats are fractions. Each function is also stated by the name under which statements call it (Props/FunctionNames.lean). Witnesses: `Mabel.FunctionTable.C106_null_text_fails`, `Mabel.FunctionTable.C106_null_raises_fails`, `Mabel.FunctionTable.C106_between_bounds_fails`, `Mabel.FunctionTable.C106_select_null_fails`.
* **C107 SQL statements and filters on object storage are answered about exactly what finished runs stored** (partial) - Missing for the full claim is what C97 and C49 leave out: datasets whose last folder has a dot in its name, runs that are marked complete without having stored anything (C79), a whole bucket as a dataset, and the statements C49 shows to be answered wrongly.
* **C109 SQL statements and filters about streamed records** (partial) - Spec/Answered.lean says what it is to be answered as if the dataset were given records. Missing: the statements C49 leaves out (proved to fail there), and identifiers made at the same time by two processes (C91).
* **C110 WEEK is the week of ISO 8601** (proved) - Spec/Week.lean says what a week is by ISO 8601, without the model: the number of Thursdays of its year up to that of the week. `C110_with_year_fails` is the witness that the pair of YEAR and WEEK is shared by days of different weeks. Witnesses: `Mabel.Week.C110_with_year_fails`.
* **C111 Remembered results are those that would be computed** (partial) - For LIKE and the labels of statements it holds for all histories. For MD5 it fails: `lru_cache` takes the keys of True and 1.0 for the same, so that MD5(1.0) after MD5(True) is the digest of True; and lists raise TypeError. `C111_md5_partial` leaves out just these. Witnesses: `Mabel.Remembered.C111_md5_fails`, `Mabel.Remembered.C111_md5_list_fails`.
* **C112 Streaming on object storage loses nothing that is finalized** (partial) - Missing: datasets whose folders are a bucket only, or whose last folder has a dot in its name (C79 has the witnesses that listing fails there), and for partitions by a field what is missing in C90. `C112_writer_again` shows that the code, which keeps one inner writer for each target, stores the same objects as the model, which makes one for each blob. An object is stored whole or not at all, as the services promise.
* **C113 Wrapping a text keeps what can be seen of it, in lines that are not too long** (partial) - Everything but the last sentence: a line in front of a word that is longer than a line can keep a blank at its end, so that wrapping again changes it (C113_again_fails). Line feeds at the end of the text are lost, and a word next to a blank outside ASCII can be broken. textwrap of Python's library is modelled for the options the code uses; C113_error_partial gives C93_text_partial without its hypothesis on textwrap. A word whose hyphens are not between letters (a date, a number, an option) and that fits on a line is on one line (C113_tied); two words of letters with a hyphen between them that do not fit together are broken right after the hyphen (C113_hyphen).  Two words with a dash between them are broken after the dash (C113_dash). Witnesses: `Mabel.TextWrap.C113_again_fails`, `Mabel.TextWrap.C113_last_feed_fails`, `Mabel.TextWrap.C113_wide_blank_fails`.
* **C114 A loss of power leaves either the data from before a run or the data of the run** (partial) - Proved when the marker is lost or had not been written; C114_marked says exactly what is listed when it is left. Then the claim is false of the code, which flushes nothing: the marker can be left and blobs be lost or empty (C114_power_loss_fails), and the finished run before is not read any more. For a process that dies, or a disk that keeps the order of what is written, see C84. Files from before the run are taken to be safe. Witnesses: `Mabel.Disk.C114_power_loss_fails`.
* **C115 SQL statements and filters about what stream writers have stored on object storage** (partial) - Missing: the statements C49 leaves out and the datasets C112 leaves out (whole buckets, or a dot in the name of the last folder).
* **C116 Several processes with stream writers for one dataset on object storage** (partial) - Missing: datasets that C112 leaves out (whole buckets, or a dot in the name of the last folder), and identifiers of which neither comes before the other: with equal ones, records are lost (C116_same_identifier_fails). Witnesses: `Mabel.CloudStream.C116_same_identifier_fails`.
* **C117 A cursor is for the data it was saved for: reading a day in sittings while it is written again** (partial) - Proved while no newer run is finished (C117_sittings_partial). When one is, the exact result is C117_what_is_delivered: the new blobs without as many of the first as were left behind of the old, or an IndexError if there are more of them, rounded up to eights. So a caller in its first blob gets everything (C117_first_blob_partial), one that meets many more blobs is refused (C117_many_more_partial), and others get a part or nothing, without an error (C117_all_read_fails, C117_run_again_fails, C117_replaced_fails). Witnesses: `Mabel.History.C117_run_again_fails`, `Mabel.History.C117_replaced_fails`, `Mabel.Cursor.C117_all_read_fails`.
* **C118 Following, in sittings, a day that a process streams to object storage** (partial) - Proved for readers of one day on both services, at every moment, if the day does not get more blobs than the saved cursor has room for (the next multiple of eight, as C92_ninth_blob_fails) and the hashes of the listed names differ. On MinIO a reader of two days begins again at each sitting (C118_minio_two_days_fails: every blob is listed once for each hour of the range). Witnesses: `Mabel.CloudStream.C118_minio_two_days_fails`.
* **C119 Following, in sittings, a range of days that daily batch runs write** (partial) - Proved on a disk and on object storage if the last reader lists no more blobs than saved cursors have room for (the next multiple of eight, C92_ninth_blob_fails), the hashes of the listed names differ and days finish in turn. A day that is written out of turn, before one that has been read, makes the caller miss records and get others twice (C119_out_of_turn_fails); a day that is written again is C117; on MinIO a reader of several days cannot be gone on with (C118_minio_two_days_fails). Witnesses: `Mabel.History.C119_out_of_turn_fails`.
* **C120 A reader on object storage that reads while runs are under way gets whole runs only** (partial) - Proved for all interleavings, for the datasets and runs of C97, with the listing of one folder a single step (different folders at different moments). False for two runs for a day that begin in the same second: they have the same frame, and what one has stored so far is delivered with the other that is done (C120_same_second_fails). For a disk see C98. Witnesses: `Mabel.CloudOverlap.C120_same_second_fails`.
* **C121 A job on object storage that is split over writers that share a frame is read as a whole** (partial) - Proved for all interleavings when every part has ended with a finalize, and as long as none is done, for the datasets and runs of C97. False between the first part that ends and the last: the first marks the frame as complete for all of them (C121_first_marks_fails); and for a part that reports a failure (C121_failed_part_fails). For a disk see C99. Witnesses: `Mabel.CloudSplit.C121_first_marks_fails`, `Mabel.CloudSplit.C121_failed_part_fails`.
* **C122 Sets stored on disk keep their own records, and leave no files behind** (partial) - That nothing is left and that other files are not touched is proved for every history. That a set gives its own records is proved if no two processes ever had the same name (so for every history of one process, even if it gets a name again), and for sets that are not empty (C33_empty_set_fails). Without that it is false: a process that ends removes the files of all names it ever had, also of one that another process has by now (C122_reused_name_fails), and a name is free from when it is given to when the file is opened (C122_same_name_fails). The files of a process that is killed stay (C122_killed_fails). Witnesses: `Mabel.TempFiles.C122_reused_name_fails`, `Mabel.TempFiles.C122_same_name_fails`, `Mabel.TempFiles.C122_killed_fails`.
* **C123 A finalized frame stays as it is until its writer is given more records** (partial) - The first two parts are proved (for later records with storage that works; failing storage is C05). That later records are all there or none is false: the frame is marked as complete already, and an append that fills a blob stores it there at once (C123_grows_fails). An append after finalize is not refused. Witnesses: `Mabel.Writer.C123_grows_fails`.
* **C124 Dates given as numbers** (partial) - The first two sentences are proved, with a local time zone of UTC. The last is false: a number past the year 9999, such as one of milliseconds, is taken for no date, and the reader silently uses the present hour (C124_milliseconds_fails); one of nanoseconds raises an error that is not caught (C124_huge_fails); 20240105 is a day of 1970 (C124_digits_fails). To a writer a date or a text is what it is to a reader (C124_writer), but every number is no date, and it writes to the present one (C124_writer_fails). Floats are taken as exact numbers; an infinite one raises (C124_infinite_fails). Witnesses: `Mabel.Timestamps.C124_milliseconds_fails`, `Mabel.Timestamps.C124_huge_fails`, `Mabel.Timestamps.C124_digits_fails`, `Mabel.Timestamps.C124_writer_fails`, `Mabel.Timestamps.C124_infinite_fails`.

## 6. Axioms per theorem

As printed by `#print axioms` for every theorem named in MANIFEST.json.

* **Classical.choice, Quot.sound, propext**: `Mabel.BigQuery.C105_bigquery_fails`, `Mabel.BigQuery.C105_bigquery_table_fails`, `Mabel.BlobIds.C104_ascending`, `Mabel.BlobIds.C104_clock_fails`, `Mabel.BlobIds.C104_distinct`, `Mabel.BlobIds.C104_fork_fails`, `Mabel.BlobIds.C104_last_finished_is_read`, `Mabel.BlobIds.C104_own_names`, `Mabel.BlobIds.C104_processes`, `Mabel.BlobIds.C104_run`, `Mabel.BlobIds.C104_stream`, `Mabel.Blobs.C24_bad_line`, `Mabel.Blobs.C24_failure_part_way`, `Mabel.Blobs.C24_no_failure`, `Mabel.Blobs.C24_others_unaffected`, `Mabel.Blobs.C25_blob_round_trip`, `Mabel.Blobs.C25_round_trip`, `Mabel.Blobs.C25_text_format_fails`, `Mabel.Blobs.C70_empty_record_fails`, `Mabel.Blobs.C70_unfiltered`, `Mabel.Blobs.C71_filter_on_unselected_fails`, `Mabel.Blobs.C71_filter_then_select_partial`, `Mabel.Blobs.C71_select_then_filter`, `Mabel.Blobs.C77_jsonl`, `Mabel.Blobs.C77_lzma`, `Mabel.Blobs.C77_others`, `Mabel.Blobs.C77_override`, `Mabel.Blobs.C77_zip`, `Mabel.Blobs.C77_zip_damaged`, `Mabel.Blobs.C77_zstd_last_line_fails`, `Mabel.Blobs.C77_zstd_partial`, `Mabel.Cloud.C119_days_in_turn_cloud_partial`, `Mabel.Cloud.C97_minio_parallel_fails`, `Mabel.Cloud.C97_minio_resume_fails`, `Mabel.Cloud.C97_nothing_finished_partial`, `Mabel.Cloud.C97_range_is_read_partial`, `Mabel.CloudOverlap.C120_read_while_written_partial`, `Mabel.CloudOverlap.C120_same_second_fails`, `Mabel.CloudSplit.C121_failed_part_fails`, `Mabel.CloudSplit.C121_first_marks_fails`, `Mabel.CloudSplit.C121_split_job_partial`, `Mabel.CloudStream.C112_at_any_moment_partial`, `Mabel.CloudStream.C112_filter_reads_value_partial`, `Mabel.CloudStream.C112_finalized_stays_partial`, `Mabel.CloudStream.C112_hours_are_read_partial`, `Mabel.CloudStream.C112_hours_stay_partial`, `Mabel.CloudStream.C112_streamed_is_read_partial`, `Mabel.CloudStream.C112_values_stay_partial`, `Mabel.CloudStream.C112_writer_again`, `Mabel.CloudStream.C116_filter_partial`, `Mabel.CloudStream.C116_finalized_partial`, `Mabel.CloudStream.C116_hours_partial`, `Mabel.CloudStream.C116_processes_partial`, `Mabel.CloudStream.C116_same_identifier_fails`, `Mabel.CloudStream.C116_started_again_partial`, `Mabel.CloudStream.C118_follow_day_partial`, `Mabel.CloudStream.C118_follow_value_partial`, `Mabel.CloudStream.C118_minio_two_days_fails`, `Mabel.Collected.C59_aggregate`, `Mabel.Collected.C59_aggregated`, `Mabel.Collected.C59_applied`, `Mabel.Collected.C59_asked`, `Mabel.Collected.C59_collect`, `Mabel.Collected.C59_count`, `Mabel.Collected.C59_dedupe`, `Mabel.Collected.C59_deduped`, `Mabel.Collected.C59_get`, `Mabel.Collected.C59_groups`, `Mabel.Collected.C59_items`, `Mabel.Collected.C59_listed`, `Mabel.Collected.C59_own_column`, `Mabel.Collected.C59_several_fails`, `Mabel.Collected.C59_values`, `Mabel.Colors.C94_again`, `Mabel.Colors.C94_off_fails`, `Mabel.Colors.C94_off_partial`, `Mabel.Colors.C94_on`, `Mabel.Context.C95_context`, `Mabel.Context.C95_errors`, `Mabel.Context.C95_none_overrides_fails`, `Mabel.Context.C95_not_object_fails`, `Mabel.Context.C95_which_file_fails`, `Mabel.Cursor.C117_all_read_fails`, `Mabel.Cursor.C117_first_blob_partial`, `Mabel.Cursor.C117_what_is_delivered`, `Mabel.Cursor.C15_collision_fails`, `Mabel.Cursor.C15_listed_twice_fails`, `Mabel.Cursor.C15_resume_exact`, `Mabel.Cursor.C16_round_trip`, `Mabel.Cursor.C17_bad_map_refused`, `Mabel.Cursor.C17_larger_set_refused_partial`, `Mabel.Cursor.C17_padding_fails`, `Mabel.Cursor.C17_short_map_refused_partial`, `Mabel.Cursor.C92_earlier_blob_fails`, `Mabel.Cursor.C92_following_partial`, `Mabel.Cursor.C92_ninth_blob_fails`, `Mabel.Dates.C21_date_range_whole_day`, `Mabel.Dates.C21_range_any_argument`, `Mabel.Dates.C21_range_complete`, `Mabel.Dates.C21_reader_last_day_fails`, `Mabel.Dates.C21_reversed_refused`, `Mabel.Dates.C21_text_end_whole_day`, `Mabel.Dates.C50_date`, `Mabel.Dates.C50_minute`, `Mabel.Dates.C50_negative_offset_ignored`, `Mabel.Dates.C50_not_iso_fails`, `Mabel.Dates.C50_read_from`, `Mabel.Dates.C50_second`, `Mabel.Dates.C51_malformed_not_refused`, `Mabel.Dates.C51_parse`, `Mabel.DictSet.C80_at_most_once`, `Mabel.DictSet.C80_derived`, `Mabel.DictSet.C80_never_twice`, `Mabel.DictSet.C80_one_then_rest`, `Mabel.DictSet.C80_take_then_rest`, `Mabel.DictSet.C81_average_partial`, `Mabel.DictSet.C81_derived`, `Mabel.DictSet.C81_kept`, `Mabel.DictSet.C81_more_than_half_fails`, `Mabel.DictSet.C81_negative_fails`, `Mabel.DictSet.C81_nought_fails`, `Mabel.DictSet.C81_over_one_fails`, `Mabel.DictSet.C81_sample`, `Mabel.DictSet.C81_smallest_fails`, `Mabel.DictSet.C81_sublist`, `Mabel.DictSet.C81_two_fifths_fails`, `Mabel.DictSet.C82_empty_fails`, `Mabel.DictSet.C82_types_partial`, `Mabel.DictSet.C82_unstored_fails`, `Mabel.Disk.C114_marked`, `Mabel.Disk.C114_power_loss_fails`, `Mabel.Disk.C114_unmarked_partial`, `Mabel.Disk.C84_crash_atomic`, `Mabel.Disk.C84_partly_written_fails`, `Mabel.Disk.C84_run_completes`, `Mabel.Disk.C84_stopped_store`, `Mabel.Disk.C84_store_atomic_fails`, `Mabel.Disk.C84_stored`, `Mabel.Display.C57_decoded`, `Mabel.Display.C57_escaped`, `Mabel.Display.C57_injective`, `Mabel.Display.C57_list_of_numbers_fails`, `Mabel.Display.C57_markup`, `Mabel.Display.C57_objects_fails`, `Mabel.Display.C57_table`, `Mabel.Display.C57_table_of_texts`, `Mabel.Display.C65_ascii_partial`, `Mabel.Display.C65_cells_partial`, `Mabel.Display.C65_empty_name_fails`, `Mabel.Display.C65_html_zero_fails`, `Mabel.Display.C65_lines_align`, `Mabel.Display.C65_missing_fails`, `Mabel.Display.C65_order_fails`, `Mabel.EndToEnd.C72_written_is_read`, `Mabel.Entropy.C55_string`, `Mabel.Entropy.C55_string_all`, `Mabel.ErrorStack.C93_circle_fails`, `Mabel.ErrorStack.C93_first_lines_fails`, `Mabel.ErrorStack.C93_label`, `Mabel.ErrorStack.C93_label_fails`, `Mabel.ErrorStack.C93_local_fails`, `Mabel.ErrorStack.C93_marked`, `Mabel.ErrorStack.C93_message_fails`, `Mabel.ErrorStack.C93_no_error`, `Mabel.ErrorStack.C93_text_partial`, `Mabel.Evaluator.C62_aggregate_fails`, `Mabel.Evaluator.C62_alias_fails`, `Mabel.Evaluator.C62_columns_partial`, `Mabel.Evaluator.C62_constant_fails`, `Mabel.Evaluator.C62_fields_partial`, `Mabel.Evaluator.C62_no_memory`, `Mabel.Evaluator.C62_no_parentheses`, `Mabel.Evaluator.C62_one_each_partial`, `Mabel.Evaluator.C62_reads`, `Mabel.Evaluator.C62_star_fails`, `Mabel.Evaluator.C62_text_fails`, `Mabel.Evaluator.C62_unbalanced`, `Mabel.Expression.C43_ends`, `Mabel.Expression.C43_every_expression`, `Mabel.Expression.C43_null_fails`, `Mabel.Expression.C43_null_in_parentheses_fails`, `Mabel.Expression.C43_null_partial`, `Mabel.Expression.C43_parse_partial`, `Mabel.Expression.C43_unambiguous`, `Mabel.Expression.C44_bad_regex_fails`, `Mabel.Expression.C44_boolean`, `Mabel.Expression.C44_like_missing_fails`, `Mabel.Expression.C44_like_number_fails`, `Mabel.Expression.C44_never_raises_partial`, `Mabel.Expression.C44_raises`, `Mabel.Expression.C44_text_form`, `Mabel.Expression.C45_and_of_ors_fails`, `Mabel.Expression.C45_missing_fails`, `Mabel.Expression.C45_not_fails`, `Mabel.Expression.C45_same_partial`, `Mabel.Expression.C45_text_fails`, `Mabel.Expression.C45_three_fails`, `Mabel.Expression.C74_accepted_partial`, `Mabel.Expression.C74_call_dropped_fails`, `Mabel.Expression.C74_no_operator`, `Mabel.Expression.C74_not_operand_fails`, `Mabel.Expression.C74_trailing_fails`, `Mabel.Expression.C75_again_partial`, `Mabel.Expression.C75_any_number_partial`, `Mabel.Expression.C75_empty_name_fails`, `Mabel.Expression.C76_boolean_text_fails`, `Mabel.Expression.C76_in_integers`, `Mabel.Expression.C76_in_texts_partial`, `Mabel.Expression.C76_integers`, `Mabel.Expression.C76_like_partial`, `Mabel.Expression.C76_null`, `Mabel.Expression.C76_number_text_fails`, `Mabel.Expression.C76_numbers`, `Mabel.Expression.C76_texts_partial`, `Mabel.Filters.C42_conjunction`, `Mabel.Filters.C42_conjunction_total`, `Mabel.Filters.C42_disjunction`, `Mabel.Filters.C42_filter`, `Mabel.Filters.C42_integers`, `Mabel.Filters.C42_like`, `Mabel.Filters.C42_like_values`, `Mabel.Filters.C42_list_contains`, `Mabel.Filters.C42_lists`, `Mabel.Filters.C42_lists_undecided`, `Mabel.Filters.C42_malformed`, `Mabel.Filters.C42_members`, `Mabel.Filters.C42_mixed`, `Mabel.Filters.C42_narrows`, `Mabel.Filters.C42_no_filter`, `Mabel.Filters.C42_null`, `Mabel.Filters.C42_numbers`, `Mabel.Filters.C42_other_type`, `Mabel.Filters.C42_texts`, `Mabel.Filters.C42_unknown_operator`, `Mabel.Filters.C42_values`, `Mabel.Filters.C42_widens`, `Mabel.FunctionTable.C106_adddays_by_name`, `Mabel.FunctionTable.C106_arity`, `Mabel.FunctionTable.C106_between`, `Mabel.FunctionTable.C106_between_bounds_fails`, `Mabel.FunctionTable.C106_between_value`, `Mabel.FunctionTable.C106_concat_by_name`, `Mabel.FunctionTable.C106_cut_by_name`, `Mabel.FunctionTable.C106_cut_number`, `Mabel.FunctionTable.C106_daysdiff_by_name`, `Mabel.FunctionTable.C106_double`, `Mabel.FunctionTable.C106_isnone`, `Mabel.FunctionTable.C106_len`, `Mabel.FunctionTable.C106_names`, `Mabel.FunctionTable.C106_null`, `Mabel.FunctionTable.C106_null_raises_fails`, `Mabel.FunctionTable.C106_null_text_fails`, `Mabel.FunctionTable.C106_parts_by_name`, `Mabel.FunctionTable.C106_round`, `Mabel.FunctionTable.C106_select_null_fails`, `Mabel.FunctionTable.C106_select_partial`, `Mabel.FunctionTable.C106_sort`, `Mabel.FunctionTable.C106_sort_refused`, `Mabel.FunctionTable.C106_text_by_name`, `Mabel.FunctionTable.C106_trim`, `Mabel.FunctionTable.C106_truncate`, `Mabel.FunctionTable.C106_unknown`, `Mabel.FunctionTable.C106_whole`, `Mabel.Functions.C60_adddays`, `Mabel.Functions.C60_adddays_date`, `Mabel.Functions.C60_boolean`, `Mabel.Functions.C60_concat_list`, `Mabel.Functions.C60_daysdiff`, `Mabel.Functions.C60_daysdiff_back`, `Mabel.Functions.C60_integer_nearest`, `Mabel.Functions.C60_integer_partial`, `Mabel.Functions.C60_parts`, `Mabel.Functions.C60_parts_of_date_text`, `Mabel.Functions.C60_random`, `Mabel.Functions.C60_random_all`, `Mabel.Functions.C60_reassemble`, `Mabel.GroupBy.C38_counts`, `Mabel.GroupBy.C38_too_many_groups`, `Mabel.GroupBy.C38_too_many_refused`, `Mabel.GroupBy.C39_aggregations_partial`, `Mabel.GroupBy.C39_average_of_nulls_fails`, `Mabel.GroupBy.C39_average_partial`, `Mabel.GroupBy.C39_count_with_average_fails`, `Mabel.GroupBy.C39_great_sum_fails`, `Mabel.GroupBy.C39_rounded`, `Mabel.GroupBy.C39_sum_partial`, `Mabel.GroupBy.C39_sum_with_average_fails`, `Mabel.GroupBy.C40_max_partial`, `Mabel.GroupBy.C40_max_zero_fails`, `Mabel.GroupBy.C40_min_partial`, `Mabel.GroupBy.C40_min_zero_fails`, `Mabel.GroupBy.C41_groups`, `Mabel.GroupBy.C41_kinds_fails`, `Mabel.GroupBy.C41_run_together_fails`, `Mabel.GroupBy.C41_same_group_partial`, `Mabel.GroupBy.C73_same_list_fails`, `Mabel.GroupBy.C73_second_question_fails`, `Mabel.Histogram.C58_bins`, `Mabel.Histogram.C58_drawn`, `Mabel.Histogram.C58_drawn_empty_fails`, `Mabel.Histogram.C58_last_bin_fails`, `Mabel.Histogram.C58_no_values`, `Mabel.Histogram.C58_one_bin_fails`, `Mabel.History.C117_many_more_partial`, `Mabel.History.C117_replaced_fails`, `Mabel.History.C117_run_again_fails`, `Mabel.History.C117_sittings_partial`, `Mabel.History.C119_days_in_turn_partial`, `Mabel.History.C119_out_of_turn_fails`, `Mabel.History.C86_empty_run`, `Mabel.History.C86_last_finished_is_read`, `Mabel.History.C86_read_while_written`, `Mabel.History.C86_same_second_fails`, `Mabel.History.C86_unfinished_is_not_read`, `Mabel.History.C87_empty_days`, `Mabel.History.C87_nothing_finished`, `Mabel.History.C87_range_is_read`, `Mabel.History.C87_usual_partitions`, `Mabel.Like.C46_exactly`, `Mabel.Like.C46_final_line_feed_fails`, `Mabel.Like.C46_like_partial`, `Mabel.Like.C46_not_like`, `Mabel.Like.C46_null_fails`, `Mabel.Like.C46_percent_line_feed_fails`, `Mabel.Like.C46_plain`, `Mabel.Listing.C11_reader_never_lists_backout`, `Mabel.Listing.C18_no_duplicates_partial`, `Mabel.Listing.C18_sound`, `Mabel.Listing.C19_ambiguous_names_fails`, `Mabel.Listing.C19_newest_frame`, `Mabel.Listing.C19_no_valid_frame`, `Mabel.Listing.C20_bleed_fails`, `Mabel.Listing.C20_bleed_hides_fails`, `Mabel.Listing.C20_each_once_partial`, `Mabel.Listing.C20_frames_per_segment_partial`, `Mabel.Listing.C23_finds_most_recent`, `Mabel.Listing.C23_nothing_found`, `Mabel.Listing.C23_readable_iff`, `Mabel.Listing.C23_unreadable_day_fails`, `Mabel.Listing.C23_within_limit`, `Mabel.Listing.C69_filter_selects_segment`, `Mabel.Listing.C69_operator_refused`, `Mabel.Listing.C69_prefix_hides_fails`, `Mabel.Listing.C69_underscore_ignored_fails`, `Mabel.Listing.C69_unframed`, `Mabel.Listing.C69_value_stripped_fails`, `Mabel.Naming.C11_invalid_never_read`, `Mabel.Naming.C22_blobs_readable`, `Mabel.Naming.C22_completed_is_read`, `Mabel.Naming.C22_incomplete_not_read`, `Mabel.Naming.C22_same_second_fails`, `Mabel.Naming.holds_exists`, `Mabel.NullAdapter.C96_once_a_day`, `Mabel.NullAdapter.C96_one_day_partial`, `Mabel.NullAdapter.C96_range_fails`, `Mabel.ObjectStore.C79_dotted_folder_fails`, `Mabel.ObjectStore.C79_empty_run_fails`, `Mabel.ObjectStore.C79_fetched`, `Mabel.ObjectStore.C79_listed_once_partial`, `Mabel.ObjectStore.C79_listing_partial`, `Mabel.ObjectStore.C79_minio_listing_partial`, `Mabel.ObjectStore.C79_minio_repeats_fails`, `Mabel.ObjectStore.C79_minio_stored_is_listed_partial`, `Mabel.ObjectStore.C79_stored_is_listed_partial`, `Mabel.ObjectStore.C79_whole_bucket_fails`, `Mabel.Overlap.C98_read_while_written_partial`, `Mabel.Overlap.C98_torn_listing_fails`, `Mabel.Parallel.C26_complete_run`, `Mabel.Parallel.C26_crash_fails`, `Mabel.Parallel.C26_each_blob_once`, `Mabel.Parallel.C26_every_run_ends`, `Mabel.Parallel.C26_late_worker_fails`, `Mabel.Parallel.C26_never_stuck`, `Mabel.Parallel.C26_none_becomes_text_fails`, `Mabel.Parallel.C26_queue_round_trip`, `Mabel.Parallel.C26_queue_unchanged_partial`, `Mabel.Parallel.C26_single_blob_fails`, `Mabel.Paths.C52_bucket_alone`, `Mabel.Paths.C52_dates_distinct`, `Mabel.Paths.C52_file_in_bucket_fails`, `Mabel.Paths.C52_parts_file`, `Mabel.Paths.C52_parts_folder`, `Mabel.Paths.C52_rejoin_file`, `Mabel.Paths.C52_rejoin_folder`, `Mabel.Paths.C52_template`, `Mabel.Props.C101_classes_partial`, `Mabel.Props.C101_empty_on_disk_fails`, `Mabel.Props.C101_loop_partial`, `Mabel.Props.C101_reading_changes_nothing`, `Mabel.Props.C101_stored_partial`, `Mabel.Props.C101_take_moves_loops_fails`, `Mabel.Props.C31_columns_collide_fails`, `Mabel.Props.C31_distinct_column`, `Mabel.Props.C31_distinct_idempotent`, `Mabel.Props.C31_distinct_of_separated`, `Mabel.Props.C31_distinct_partial`, `Mabel.Props.C31_distinct_records`, `Mabel.Props.C31_equal_records_merge`, `Mabel.Props.C31_missing_collides_fails`, `Mabel.Props.C31_names_ignored_fails`, `Mabel.Props.C33_empty_records_fails`, `Mabel.Props.C34_get_items_disk_partial`, `Mabel.Props.C34_get_items_negative_fails`, `Mabel.Props.C34_get_items_order_fails`, `Mabel.Props.C35_key_order`, `Mabel.Props.C36_null_fails`, `Mabel.Props.C37_select`, `Mabel.Props.C37_select_star`, `Mabel.Props.C59_after_reading_fails`, `Mabel.Reader.C23_reader_never_before_limit`, `Mabel.Reader.C23_two_dates_refused`, `Mabel.Reader.C27_access`, `Mabel.Records.C56_list_of_dicts_fails`, `Mabel.Records.C56_list_partial`, `Mabel.Records.C56_lists_fails`, `Mabel.Records.C78_order`, `Mabel.Records.C78_select`, `Mabel.Records.C78_set`, `Mabel.Remembered.C111_like`, `Mabel.Remembered.C111_md5_fails`, `Mabel.Remembered.C111_md5_list_fails`, `Mabel.Remembered.C111_md5_partial`, `Mabel.SortTake.C32_mixed_fails`, `Mabel.SortTake.C32_rows`, `Mabel.Split.C99_failed_part_fails`, `Mabel.Split.C99_first_marks_fails`, `Mabel.Split.C99_split_job_partial`, `Mabel.Sql.C47_accepted_iff`, `Mabel.Sql.C47_components`, `Mabel.Sql.C47_empty`, `Mabel.Sql.C47_parsed`, `Mabel.Sql.C48_complete`, `Mabel.Sql.C48_ends`, `Mabel.Sql.C48_incomplete`, `Mabel.Sql.C48_leading_fails`, `Mabel.Sql.C48_order_fails`, `Mabel.Sql.C48_parse_partial`, `Mabel.Sql.C48_quoted_fails`, `Mabel.SqlReader.C100_empty_list`, `Mabel.SqlReader.C100_function_fails`, `Mabel.SqlReader.C100_list_partial`, `Mabel.SqlReader.C100_lists_partial`, `Mabel.SqlReader.C100_raising_fails`, `Mabel.SqlReader.C100_select_partial`, `Mabel.SqlReader.C100_text_partial`, `Mabel.SqlReader.C100_until_it_raises`, `Mabel.SqlReader.C102_converted_partial`, `Mabel.SqlReader.C102_empty_record_fails`, `Mabel.SqlReader.C102_function_partial`, `Mabel.SqlReader.C102_list_partial`, `Mabel.SqlReader.C102_lists_partial`, `Mabel.SqlReader.C102_other_fails`, `Mabel.SqlReader.C102_raising_fails`, `Mabel.SqlReader.C102_reader_lists_partial`, `Mabel.SqlReader.C102_reader_text_partial`, `Mabel.SqlReader.C102_text_partial`, `Mabel.SqlReader.C107_filter_lists_partial`, `Mabel.SqlReader.C107_filter_text_partial`, `Mabel.SqlReader.C107_group_partial`, `Mabel.SqlReader.C107_nothing_finished_partial`, `Mabel.SqlReader.C107_select_partial`, `Mabel.SqlReader.C107_star_partial`, `Mabel.SqlReader.C107_stored_partial`, `Mabel.SqlReader.C107_total_partial`, `Mabel.SqlReader.C109_finalized_stays_partial`, `Mabel.SqlReader.C109_hours_partial`, `Mabel.SqlReader.C109_processes_partial`, `Mabel.SqlReader.C109_streamed_partial`, `Mabel.SqlReader.C115_at_any_moment_partial`, `Mabel.SqlReader.C115_finalized_stays_partial`, `Mabel.SqlReader.C115_hours_partial`, `Mabel.SqlReader.C115_streamed_partial`, `Mabel.SqlReader.C115_values_partial`, `Mabel.SqlReader.C116_statements_partial`, `Mabel.SqlReader.C49_bare_not_fails`, `Mabel.SqlReader.C49_count_nothing_fails`, `Mabel.SqlReader.C49_distinct`, `Mabel.SqlReader.C49_group_partial`, `Mabel.SqlReader.C49_limit`, `Mabel.SqlReader.C49_limit_zero_fails`, `Mabel.SqlReader.C49_order_cap_fails`, `Mabel.SqlReader.C49_order_mixed`, `Mabel.SqlReader.C49_order_star_fails`, `Mabel.SqlReader.C49_order_unselected_fails`, `Mabel.SqlReader.C49_raise_fails`, `Mabel.SqlReader.C49_select_partial`, `Mabel.SqlReader.C49_shadow_fails`, `Mabel.SqlReader.C49_sorted`, `Mabel.SqlReader.C49_star_empty_fails`, `Mabel.SqlReader.C49_star_partial`, `Mabel.SqlReader.C49_subquery_call_fails`, `Mabel.SqlReader.C49_subquery_partial`, `Mabel.SqlReader.C49_subquery_star_partial`, `Mabel.SqlReader.C49_subquery_where_fails`, `Mabel.SqlReader.C49_swap_fails`, `Mabel.SqlReader.C49_total_partial`, `Mabel.SqlReader.C88_group`, `Mabel.SqlReader.C88_nothing_finished`, `Mabel.SqlReader.C88_same_reader`, `Mabel.SqlReader.C88_select`, `Mabel.SqlReader.C88_star`, `Mabel.SqlReader.C88_stored`, `Mabel.SqlReader.C88_total`, `Mabel.Stream.C08_any_schedule`, `Mabel.Stream.C08_exactly_once`, `Mabel.Stream.C08_finalize_empties`, `Mabel.Stream.C08_stored_is_prefix`, `Mabel.Stream.C09_one_writer_per_target`, `Mabel.Stream.C10_attendant_pass`, `Mabel.Stream.C10_last_use`, `Mabel.Stream.C66_loss_is_reported_fails`, `Mabel.Stream.C66_no_duplicates`, `Mabel.StreamStorage.C89_at_any_moment`, `Mabel.StreamStorage.C89_finalized_stays`, `Mabel.StreamStorage.C89_hours_are_read`, `Mabel.StreamStorage.C89_hours_stay`, `Mabel.StreamStorage.C89_nothing_passed_over`, `Mabel.StreamStorage.C89_steps_stay`, `Mabel.StreamStorage.C89_streamed_is_read`, `Mabel.StreamStorage.C89_torn_blob`, `Mabel.StreamStorage.C90_alike_values_fails`, `Mabel.StreamStorage.C90_at_any_moment_partial`, `Mabel.StreamStorage.C90_backout_value_fails`, `Mabel.StreamStorage.C90_date_name_fails`, `Mabel.StreamStorage.C90_delivered_twice_fails`, `Mabel.StreamStorage.C90_exact_partial`, `Mabel.StreamStorage.C90_filter_reads_value_partial`, `Mabel.StreamStorage.C90_finalized_stays_partial`, `Mabel.StreamStorage.C90_no_value_fails`, `Mabel.StreamStorage.C90_underscore_fails`, `Mabel.StreamStorage.C91_all_is_read_partial`, `Mabel.StreamStorage.C91_filter_partial`, `Mabel.StreamStorage.C91_hours_partial`, `Mabel.StreamStorage.C91_processes_partial`, `Mabel.StreamStorage.C91_same_identifier_fails`, `Mabel.StreamStorage.C91_same_time_fails`, `Mabel.StreamStorage.C91_started_again_partial`, `Mabel.StreamStorage.C92_follow_day_partial`, `Mabel.StreamStorage.C92_follow_value_partial`, `Mabel.StreamStorage.C92_part_written_fails`, `Mabel.Summaries.C108_mean`, `Mabel.Summaries.C108_mean_between`, `Mabel.Summaries.C108_order`, `Mabel.Summaries.C108_refused`, `Mabel.Summaries.C108_variance`, `Mabel.Summaries.C36_column`, `Mabel.Summaries.C36_max_min_refused`, `Mabel.Summaries.C36_max_of`, `Mabel.Summaries.C36_min_of`, `Mabel.Summaries.C36_sum_numbers`, `Mabel.Summaries.C36_sum_refused`, `Mabel.Targets.C11_invalid_to_backout`, `Mabel.Targets.C11_valid_adds_no_folder`, `Mabel.Targets.C11_valid_never_in_backout_fails`, `Mabel.Targets.C11_valid_target`, `Mabel.Targets.C12_folder_depth`, `Mabel.Targets.C12_values_add_only_safe`, `Mabel.Targets.C53_default_alphabet`, `Mabel.Targets.C53_idempotent`, `Mabel.Targets.C53_keeps_exactly_safe`, `Mabel.Targets.C68_number_of_writes`, `Mabel.Targets.C68_same_target_twice_fails`, `Mabel.Targets.C68_targets`, `Mabel.TempFiles.C122_killed_fails`, `Mabel.TempFiles.C122_own_records_partial`, `Mabel.TempFiles.C122_reused_name_fails`, `Mabel.TempFiles.C122_same_name_fails`, `Mabel.Text.C103_again`, `Mabel.Text.C103_field_name`, `Mabel.Text.C103_field_name_fails`, `Mabel.Text.C103_letters`, `Mabel.Text.C103_tokens`, `Mabel.Text.C103_words_fails`, `Mabel.TextWrap.C113_again_fails`, `Mabel.TextWrap.C113_dash`, `Mabel.TextWrap.C113_error_partial`, `Mabel.TextWrap.C113_fills`, `Mabel.TextWrap.C113_keeps`, `Mabel.TextWrap.C113_last_feed_fails`, `Mabel.TextWrap.C113_wide_blank_fails`, `Mabel.Threads.C85_at_most_once`, `Mabel.Threads.C85_can_finish`, `Mabel.Threads.C85_everything`, `Mabel.Threads.C85_records_partial`, `Mabel.Timestamps.C124_digits_fails`, `Mabel.Timestamps.C124_every`, `Mabel.Timestamps.C124_float`, `Mabel.Timestamps.C124_float_whole`, `Mabel.Timestamps.C124_huge_fails`, `Mabel.Timestamps.C124_infinite_fails`, `Mabel.Timestamps.C124_instant`, `Mabel.Timestamps.C124_milliseconds_fails`, `Mabel.Timestamps.C124_reader`, `Mabel.Timestamps.C124_writer`, `Mabel.Timestamps.C124_writer_fails`, `Mabel.Tokenizer.C64_between_fails`, `Mabel.Tokenizer.C64_dotted_fails`, `Mabel.Tokenizer.C64_expression_partial`, `Mabel.Tokenizer.C64_nested_fails`, `Mabel.Tokenizer.C64_never_raises`, `Mabel.Tokenizer.C64_no_quotes`, `Mabel.Tokenizer.C64_quoted`, `Mabel.Tokenizer.C64_rows`, `Mabel.Tokenizer.C64_spaces_fails`, `Mabel.Tokenizer.C64_split`, `Mabel.Tokenizer.C64_tokens_partial`, `Mabel.Tokenizer.C64_unclosed_fails`, `Mabel.Validator.C28_accepted_iff`, `Mabel.Validator.C28_brought_incompatibility_fails`, `Mabel.Validator.C28_reader`, `Mabel.Validator.C54_edit_distance`, `Mabel.Validator.C54_suggestions`, `Mabel.Week.C110_january`, `Mabel.Week.C110_text`, `Mabel.Week.C110_week`, `Mabel.Week.C110_weeks`, `Mabel.Week.C110_with_year_fails`, `Mabel.WriterInit.C83_bad_date_fails`, `Mabel.WriterInit.C83_batch`, `Mabel.WriterInit.C83_batch_datefolders_fails`, `Mabel.WriterInit.C83_batch_raw_path_fails`, `Mabel.WriterInit.C83_dotted_name_fails`, `Mabel.WriterInit.C83_frames_hide_fails`, `Mabel.WriterInit.C83_readable`, `Mabel.WriterInit.C83_refused`, `Mabel.WriterInit.C83_reserved_name_fails`, `Mabel.WriterInit.C83_single_folder`, `Mabel.WriterInit.C83_split_job`, `Mabel.WriterInit.C83_stored_is_read_partial`, `Mabel.WriterInit.C83_where`, `Mabel.Xml.C63_everything_partial`, `Mabel.Xml.C63_found`, `Mabel.Xml.C63_kept`, `Mabel.Xml.C63_leaf`, `Mabel.Xml.C63_namespace_fails`, `Mabel.Xml.C63_order_fails`, `Mabel.Xml.C63_places`, `Mabel.Xml.C63_tail_fails`
* **Quot.sound, propext**: `Mabel.Cursor.C17_missing_refused`, `Mabel.Database.C13_append_reports_pending`, `Mabel.Database.C13_batch_size_partial`, `Mabel.Database.C13_exactly_once`, `Mabel.Database.C13_finalized`, `Mabel.Database.C13_full_batches`, `Mabel.Database.C14_again`, `Mabel.Database.C14_finalizer_at_most_once`, `Mabel.Database.C14_leave_scope`, `Mabel.DictSet.C80_first_match`, `Mabel.DictSet.C80_nothing_lost`, `Mabel.Entropy.C55_choice`, `Mabel.Entropy.C55_choice_all`, `Mabel.Entropy.C55_int`, `Mabel.Entropy.C55_int_all`, `Mabel.Entropy.C55_range`, `Mabel.Entropy.C55_range_all`, `Mabel.ErrorStack.C93_ends_iff`, `Mabel.Functions.C60_daysdiff_dates`, `Mabel.Functions.C60_integer_fails`, `Mabel.Functions.C60_left`, `Mabel.Functions.C60_mid`, `Mabel.Functions.C60_right_partial`, `Mabel.Listing.C23_bounded`, `Mabel.ObjectStore.C79_listing_once`, `Mabel.Paging.C61_empty_fails`, `Mabel.Paging.C61_last_record_fails`, `Mabel.Paging.C61_pages_partial`, `Mabel.Props.C29_take_first_partial`, `Mabel.Props.C29_take_negative`, `Mabel.Props.C29_take_zero_fails`, `Mabel.Props.C30_filter_exact`, `Mabel.Props.C30_filter_twice`, `Mabel.Props.C32_sort_and_take`, `Mabel.Props.C32_storage_irrelevant`, `Mabel.Props.C33_batches`, `Mabel.Props.C33_empty_set_fails`, `Mabel.Props.C33_storage_partial`, `Mabel.Props.C34_get_items_compressed_partial`, `Mabel.Props.C34_get_items_list_partial`, `Mabel.Props.C34_get_items_unstored_fails`, `Mabel.Props.C35_duplicates_cancel`, `Mabel.Props.C35_record_order`, `Mabel.Props.C36_count`, `Mabel.Props.C36_keys`, `Mabel.Props.C36_max_min`, `Mabel.Props.C36_sum`, `Mabel.Reader.C27_allowed_iff`, `Mabel.Records.C56_flatten_partial`, `Mabel.Records.C78_select_order`, `Mabel.Remembered.C111_bounded`, `Mabel.Remembered.C111_remembered`, `Mabel.Remembered.C111_texts`, `Mabel.SortTake.C32_mixed_refused`, `Mabel.Sql.C48_comments`, `Mabel.Stream.C09_get_writer`, `Mabel.Stream.C10_below_capacity`, `Mabel.Stream.C10_least_recently_used`, `Mabel.Stream.C10_over_capacity`, `Mabel.Stream.C10_within_capacity_partial`, `Mabel.Summaries.C36_keys_of`, `Mabel.Summaries.C36_min_max_of`, `Mabel.Targets.C68_finds_places`, `Mabel.TempFiles.C122_nothing_left`, `Mabel.TempFiles.C122_only_live`, `Mabel.TempFiles.C122_others_kept`, `Mabel.TextWrap.C113_begin`, `Mabel.TextWrap.C113_ends`, `Mabel.TextWrap.C113_fits`, `Mabel.TextWrap.C113_hyphen`, `Mabel.TextWrap.C113_long`, `Mabel.TextWrap.C113_refused`, `Mabel.TextWrap.C113_tied`, `Mabel.TextWrap.C113_unchanged`, `Mabel.TextWrap.C113_words`, `Mabel.Threads.C85_order_fails`, `Mabel.Threads.C85_returns_fails`, `Mabel.Threads.C85_work_bounded`, `Mabel.Writer.C01_conservation`, `Mabel.Writer.C01_dropped`, `Mabel.Writer.C02_blob_size`, `Mabel.Writer.C02_blobs_are_full`, `Mabel.Writer.C02_text_bound`, `Mabel.Writer.C03_append_count`, `Mabel.Writer.C05_dropped`, `Mabel.Writer.C05_failed_store_partial`, `Mabel.Writer.C05_failed_store_text`, `Mabel.Writer.C06_dropped`, `Mabel.Writer.C06_failure_is_sticky`, `Mabel.Writer.C06_marker_policy`, `Mabel.Writer.C07_crash_consistency`, `Mabel.Writer.C123_later_records`, `Mabel.Writer.C123_stays`
* **none**: `Mabel.Database.C13_batch_size_fails`, `Mabel.Database.C13_retry_fails`, `Mabel.Database.C14_late_record_fails`, `Mabel.Database.C14_scope_failure_fails`, `Mabel.DictSet.C67_list_loop_fails`, `Mabel.Props.C67_fresh_loop`, `Mabel.Props.C67_loop_after_first_fails`, `Mabel.Props.C67_scan_complete_partial`, `Mabel.Stream.C10_none_within_capacity_fails`
* **propext**: `Mabel.Collected.C59_count_all`, `Mabel.Collected.C59_count_none_fails`, `Mabel.Dates.C50_result_valid`, `Mabel.Entropy.C55_choice_none`, `Mabel.Functions.C60_between`, `Mabel.Functions.C60_concat`, `Mabel.Functions.C60_date_of_date_fails`, `Mabel.Functions.C60_daysdiff_mixed_fails`, `Mabel.Functions.C60_parts_none`, `Mabel.Functions.C60_right_zero_fails`, `Mabel.Props.C101_empty_records_fails`, `Mabel.Props.C101_nested_loops_fails`, `Mabel.Props.C101_reading_ends_loops_fails`, `Mabel.Props.C30_filter_append`, `Mabel.Props.C34_get_items_memory_fails`, `Mabel.Props.C36_collect_list`, `Mabel.Props.C36_max_empty`, `Mabel.Props.C36_min_max`, `Mabel.Props.C67_second_loop_fails`, `Mabel.Records.C56_empty`, `Mabel.Records.C56_separator_fails`, `Mabel.Sql.C48_crlf_fails`, `Mabel.Threads.C85_error_fails`, `Mabel.Threads.C85_everything_fails`, `Mabel.Validator.C28_too_many`, `Mabel.Writer.C02_maximum_is_exceeded`, `Mabel.Writer.C04_rejected_has_no_effect`, `Mabel.Writer.C05_parquet_retry_fails`, `Mabel.Writer.C06_failure_forgotten_fails`, `Mabel.Writer.C123_grows_fails`
