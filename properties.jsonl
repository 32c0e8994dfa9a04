{"id": "C01", "title": "Batch writer neither loses, duplicates nor reorders records", "statement": "After any sequence of appends and a finalize in which storage never fails, concatenating the data blobs in the order they were stored gives exactly the accepted records, in the order they were appended. The same holds of a writer that is dropped without a finalize.", "quantifier": "every list of records with any serialised sizes, every blob size limit, every text or parquet format", "why_tests_cant": "The number and position of blob roll-overs depends on all record sizes and the limit together; a test fixes one sequence of roll-overs.", "anchors": ["mabel/data/writers/internals/blob_writer.py: BlobWriter.arrow_append, BlobWriter.text_append, BlobWriter.commit", "mabel/data/writers/writer.py: Writer.append, Writer.finalize"]}
{"id": "C02", "title": "Blob size limit and no empty blobs", "statement": "No data blob is stored without a record in it, and the bytes of a stored text blob never exceed the configured maximum by more than its final record; the buffered bytes before the final record never exceed the maximum.", "quantifier": "every record-size sequence and every size limit", "why_tests_cant": "Boundary overflow depends on the running total of arbitrary earlier sizes.", "anchors": ["mabel/data/writers/internals/blob_writer.py: BlobWriter.text_append, BlobWriter.arrow_append, BlobWriter.commit"]}
{"id": "C03", "title": "append reports the pending record count", "statement": "The number returned by append, together with the records already stored, always accounts for every accepted record: return value = number of accepted records not yet stored.", "quantifier": "every sequence of appends with any sizes", "why_tests_cant": "Counters can drift only on particular roll-over sequences.", "anchors": ["mabel/data/writers/internals/blob_writer.py: BlobWriter.text_append, BlobWriter.arrow_append, BlobWriter.commit"]}
{"id": "C04", "title": "A rejected record has no effect", "statement": "When a record fails schema validation the append raises and the writer behaves for the rest of its life exactly as if that append had not been made: same stored blobs, same counters, same completion marker.", "quantifier": "every schema predicate, every interleaving of valid and invalid records", "why_tests_cant": "Requires equality of all future behaviours, not one observed output.", "anchors": ["mabel/data/writers/writer.py: Writer.append", "mabel/data/writers/batch_writer.py: BatchWriter.finalize"]}
{"id": "C05", "title": "A failed store loses nothing and duplicates nothing", "statement": "If storing a blob raises, the records in it stay pending, and once a later store succeeds each accepted record has been stored exactly once; an append that raised has not accepted its record. Dropping the writer is such a later store.", "quantifier": "every sequence of appends and every pattern of storage failures", "why_tests_cant": "The set of failure patterns is exponential in the number of stores.", "anchors": ["mabel/data/writers/internals/blob_writer.py: BlobWriter.text_append, BlobWriter.arrow_append, BlobWriter.commit"]}
{"id": "C06", "title": "Completion marker policy", "statement": "finalize stores the frame.complete marker exactly when no failure has ever been signalled to the writer and either at least one record was appended or the writer was told to always complete; a failure once signalled is never forgotten by a later finalize. Dropping the writer never stores a marker.", "quantifier": "every history of appends and finalize calls with any has_failure flags", "why_tests_cant": "Stickiness ranges over unbounded histories of finalize calls.", "anchors": ["mabel/data/writers/batch_writer.py: BatchWriter.finalize"]}
{"id": "C07", "title": "Crash consistency of frames", "statement": "Whatever point the process dies at, if the frame's completion marker is present in storage then every record accepted before the finalize is present in that frame's blobs.", "quantifier": "every crash point (prefix of the storage effects) of every run of a batch writer", "why_tests_cant": "Crash points are all prefixes of all effect traces.", "anchors": ["mabel/data/writers/batch_writer.py: BatchWriter.finalize", "mabel/data/writers/internals/blob_writer.py: BlobWriter.commit"]}
{"id": "C08", "title": "Stream writer stores every record exactly once per target under any schedule", "statement": "For every schedule of appends, evictions by the pool attendant and a final finalize, each target path receives exactly the records routed to it, in append order, with none lost or duplicated.", "quantifier": "every interleaving of appends and attendant evictions with any clock readings", "why_tests_cant": "Thread interleavings are unbounded and timing dependent.", "anchors": ["mabel/data/writers/stream_writer.py: StreamWriter.append, StreamWriter.finalize, StreamWriter.pool_attendant", "mabel/data/writers/internals/writer_pool.py: WriterPool"]}
{"id": "C09", "title": "At most one open writer per target", "statement": "The writer pool never holds two writers for the same target, and asking for a target that is open returns the writer that is already open.", "quantifier": "every history of pool operations", "why_tests_cant": "Invariant over unbounded histories.", "anchors": ["mabel/data/writers/internals/writer_pool.py: WriterPool.get_writer, WriterPool.create_writer, WriterPool.remove_writer"]}
{"id": "C10", "title": "Eviction picks only least recently used writers and only when over capacity", "statement": "The writers nominated for eviction are the least recently accessed ones and none is nominated while the pool is within its capacity.", "quantifier": "every pool content, access history and capacity", "why_tests_cant": "Slice arithmetic misbehaves only for particular size/capacity relations.", "anchors": ["mabel/data/writers/internals/writer_pool.py: WriterPool.nominate_writers_to_evict, WriterPool.get_stale_writers"]}
{"id": "C11", "title": "Invalid stream records are diverted to BACKOUT and never read back as data", "statement": "A record that fails validation is stored only beneath a BACKOUT folder, a record that passes is never stored there (when its path has no BACKOUT of its own), and no reader lists a blob whose name contains BACKOUT.", "quantifier": "every record, schema predicate, dataset template and blob listing", "why_tests_cant": "Ranges over all records and listings.", "anchors": ["mabel/data/writers/stream_writer.py: StreamWriter.append", "mabel/data/readers/internals/base_inner_reader.py: BaseInnerReader.get_list_of_blobs"]}
{"id": "C12", "title": "Field values cannot redirect stream writes", "statement": "Values taken from records and substituted in a dataset template only ever add letters, digits and whitespace to the path: they cannot add a path separator, a dot or a new placeholder, so the folder depth of the target is that of the template.", "quantifier": "every record value (unicode included) and every template", "why_tests_cant": "Adversarial input space.", "anchors": ["mabel/data/writers/stream_writer.py: StreamWriter.append", "mabel/utils/text.py: sanitize"]}
{"id": "C13", "title": "Database writer batches without loss", "statement": "Every record appended to the database writer is inserted exactly once, in order, in batches of at most the batch size, once finalize has run.", "quantifier": "every number of appended records", "why_tests_cant": "Off-by-one at batch boundaries for every count.", "anchors": ["mabel/data/writers/database_writer.py: DatabaseWriter.append, DatabaseWriter.commit, DatabaseWriter.finalize"]}
{"id": "C14", "title": "Database writer finalises once", "statement": "Leaving the database writer's scope commits every buffered record and finalises; committing or finalising again writes no record a second time.", "quantifier": "every sequence of finalize calls", "why_tests_cant": "Unbounded histories.", "anchors": ["mabel/data/writers/database_writer.py: DatabaseWriter.finalize, DatabaseWriter.__del__"]}
{"id": "C15", "title": "Cursor resume is exact", "statement": "Reading some records, saving the cursor, and starting a new reader over the same blobs from that cursor yields exactly the records that had not been read: nothing skipped, nothing repeated.", "quantifier": "every set of distinct blobs with any contents and every stopping point", "why_tests_cant": "Every stopping point of every blob layout, including blob boundaries and empty blobs.", "anchors": ["mabel/data/readers/internals/cursor.py: Cursor", "mabel/data/readers/reader.py: _LowLevelReader.__iter__"]}
{"id": "C16", "title": "Cursor serialisation round-trips", "statement": "A cursor saved and loaded over the same blobs designates the same set of already-read blobs, the same active blob and the same location, for any number of blobs (including counts that are not a multiple of eight).", "quantifier": "every blob list and cursor state", "why_tests_cant": "Padding depends on the number of blobs modulo eight.", "anchors": ["mabel/data/readers/internals/cursor.py: Cursor.load_cursor, Cursor.get, Cursor.__getitem__"]}
{"id": "C17", "title": "Malformed cursors are rejected", "statement": "A cursor missing location, map or partition is refused with an error before any record is delivered; a well formed cursor for a larger set of blobs than the map covers is refused rather than silently misread.", "quantifier": "every dictionary offered as a cursor", "why_tests_cant": "All malformed inputs.", "anchors": ["mabel/data/readers/internals/cursor.py: Cursor.load_cursor"]}
{"id": "C18", "title": "Blob listing is sound, ordered and duplicate free", "statement": "The blobs a reader opens are a sub-collection of those in storage under the requested dates, in sorted order, with no ignored/marker/BACKOUT blob and none listed twice when storage lists each once.", "quantifier": "every storage listing", "why_tests_cant": "All listings.", "anchors": ["mabel/data/readers/internals/base_inner_reader.py: BaseInnerReader.get_list_of_blobs"]}
{"id": "C19", "title": "Only the newest complete frame is read", "statement": "When a partition is stored as as_at frames, the data read is exactly that of the newest frame which is complete and not ignored; incomplete and older frames contribute nothing.", "quantifier": "every combination of complete, ignored and incomplete frames", "why_tests_cant": "Combinatorial frame states.", "anchors": ["mabel/data/readers/internals/base_inner_reader.py: BaseInnerReader.get_list_of_blobs"]}
{"id": "C20", "title": "Segment folders do not bleed into one another", "statement": "For segments stored in sibling folders (by_hour/hour=1, by_hour/hour=10, ...), each blob of the selected segmentation is read exactly once.", "quantifier": "every collection of segment folder names", "why_tests_cant": "Bleeding happens only when one name is a prefix of another.", "anchors": ["mabel/data/readers/internals/base_inner_reader.py: BaseInnerReader.get_list_of_blobs"]}
{"id": "C21", "title": "Date ranges are covered completely and once", "statement": "The partitions visited for a start and end are every hour (or day) in the closed range, once, in ascending order, whichever way round the bounds are given.", "quantifier": "every pair of valid dates, across month and leap-year boundaries", "why_tests_cant": "All calendar boundaries.", "anchors": ["mabel/utils/dates.py: date_range", "mabel/data/readers/internals/base_inner_reader.py: BaseInnerReader.__init__"]}
{"id": "C22", "title": "What a batch writer completes, a reader for that date reads", "statement": "The blobs a batch writer stored for a date and completed are listed by a reader of the same dataset and date, and a frame that was not completed is not read.", "quantifier": "every dataset name, date, blob count and previous history of frames", "why_tests_cant": "End-to-end over all histories.", "anchors": ["mabel/data/writers/batch_writer.py", "mabel/data/readers/internals/base_inner_reader.py", "mabel/utils/paths.py: build_path, date_format"]}
{"id": "C23", "title": "Freshness limit is honoured", "statement": "When looking back for data the reader never returns data from before the freshness limit, returns the most recent day that has any, and stops after a bounded number of steps, failing if nothing is found. What counts as data of a day is told by the kinds of the blobs: records are read from blobs of the ten kinds of data and from no markers or indexes.", "quantifier": "every availability of data by day and every limit", "why_tests_cant": "All availability histories.", "anchors": ["mabel/data/readers/reader.py: Reader, _LowLevelReader", "mabel/data/readers/internals/base_inner_reader.py: BaseInnerReader.step_back_a_day"]}
{"id": "C24", "title": "A corrupt blob does not corrupt the others", "statement": "If decoding fails part way through a blob, the records before the failure are delivered, the remainder of that blob is not, and every other blob is delivered in full and in order.", "quantifier": "every sequence of blobs and every position of bad lines", "why_tests_cant": "All fault positions.", "anchors": ["mabel/data/readers/internals/parallel_reader.py: ParallelReader.__call__"]}
{"id": "C25", "title": "Text formats round-trip from writer to reader", "statement": "Lines written in the jsonl and zstd formats are split back into exactly the records written, for any records whose serialisation has no newline.", "quantifier": "every list of serialised records", "why_tests_cant": "Splitting edge cases (empty file, trailing newline) for all contents.", "anchors": ["mabel/data/writers/internals/blob_writer.py: BlobWriter.text_append, BlobWriter.commit", "mabel/data/readers/internals/decompressors.py: zstd, lines"]}
{"id": "C26", "title": "Multi-process reading delivers each blob once", "statement": "Whatever the scheduling of the worker processes, when the multi-process reader ends every blob has been delivered exactly once and every worker has been told to stop.", "quantifier": "every number of workers and blobs and every interleaving", "why_tests_cant": "Schedules are unbounded.", "anchors": ["mabel/data/readers/internals/multiprocess_wrapper.py: processed_reader, _inner_process"]}
{"id": "C27", "title": "Dataset access restriction", "statement": "With valid prefixes configured, opening a dataset succeeds only if the dataset name starts with one of them; with none configured nothing is refused.", "quantifier": "every dataset name and prefix list", "why_tests_cant": "All names.", "anchors": ["mabel/data/readers/reader.py: Reader", "mabel/data/readers/internals/base_inner_reader.py"]}
{"id": "C28", "title": "Parameter validation", "statement": "A call is rejected exactly when it omits a required parameter, passes an unknown one, or passes an incompatible combination; a rejected call never runs the function and an accepted one runs with unchanged arguments.", "quantifier": "every rule set and argument dictionary", "why_tests_cant": "All combinations.", "anchors": ["mabel/utils/parameter_validator.py: validate"]}
{"id": "C29", "title": "take(n) returns the first n records", "statement": "Taking n records from a set yields its first n records (all of them if there are fewer), leaving order unchanged.", "quantifier": "every set and every n including zero", "why_tests_cant": "Boundary n=0 and n beyond the end, all lists.", "anchors": ["mabel/data/internals/dictset.py: DictSet.take, DictSet.itake"]}
{"id": "C30", "title": "Filtering keeps exactly the matching records", "statement": "Filtering returns exactly the records that satisfy the predicate, in their original order, and filtering twice is filtering by the conjunction.", "quantifier": "every predicate and set", "why_tests_cant": "All predicates.", "anchors": ["mabel/data/internals/dictset.py: DictSet.filter", "mabel/data/internals/dnf_filters.py: DnfFilters.filter_dictset"]}
{"id": "C31", "title": "distinct removes exactly the repeats", "statement": "distinct keeps the first of each group of equal records, keeps order, keeps at least one of every different record, and applying it twice changes nothing.", "quantifier": "every set of records and column selection", "why_tests_cant": "Collisions occur only for adversarial value splits.", "anchors": ["mabel/data/internals/dictset.py: DictSet.distinct"]}
{"id": "C32", "title": "sort_and_take equals sort then take", "statement": "Sorting by a column and taking n gives the same records as a stable sort of the whole set followed by taking n, regardless of how the set is stored and however much larger than n it is. It holds for columns of numbers, of texts or of datetimes, with records that have no value; values that cannot be compared are refused, for sure if the set is in memory or is small.", "quantifier": "every set, sort direction, n and cache arrangement", "why_tests_cant": "The bounded cache spills only for sets larger than the cache; all orders.", "anchors": ["mabel/data/internals/dictset.py: DictSet.sort_and_take"]}
{"id": "C33", "title": "Storage classes are interchangeable", "statement": "A set held in memory, compressed memory or on disk yields the same records in the same order and the same length.", "quantifier": "every list of records, around every multiple of the batch size", "why_tests_cant": "Batch boundaries for all lengths.", "anchors": ["mabel/data/internals/storage_classes: StorageClassMemory, StorageClassCompressedMemory, StorageClassDisk"]}
{"id": "C34", "title": "get_items returns the items at the requested positions", "statement": "Retrieving items by position returns the records at those positions of the set.", "quantifier": "every set and every list of locations", "why_tests_cant": "All position lists.", "anchors": ["mabel/data/internals/dictset.py: DictSet.get_items"]}
{"id": "C35", "title": "Set fingerprint is order independent", "statement": "The fingerprint of a set does not depend on the order of its records nor on the order of the keys in a record.", "quantifier": "every permutation of every set", "why_tests_cant": "All permutations.", "anchors": ["mabel/data/internals/dictset.py: DictSet.__hash__"]}
{"id": "C36", "title": "Column summaries agree with their definitions", "statement": "count, sum, min, max, keys and collected column lists equal the mathematical value over the records which have the column. The maximum is the first of the greatest values and the minimum the first of the least; where values cannot be added or compared these raise TypeError.", "quantifier": "every set of records", "why_tests_cant": "All data.", "anchors": ["mabel/data/internals/dictset.py: DictSet.count, DictSet.sum, DictSet.min, DictSet.max, DictSet.keys, DictSet.collect_list"]}
{"id": "C37", "title": "Projection", "statement": "Selecting columns yields one record per input record, in order, with exactly the requested columns, the original values where present and null where missing.", "quantifier": "every set and column list", "why_tests_cant": "All data.", "anchors": ["mabel/data/internals/dictset.py: DictSet.select"]}
{"id": "C38", "title": "Group counts add up", "statement": "Group-by counts equal the number of records having that group value, so they sum to the number of records.", "quantifier": "every set and grouping columns", "why_tests_cant": "Collisions and accumulation over all sets.", "anchors": ["mabel/data/internals/group_by.py: GroupBy.count, GroupBy.aggregate, GroupBy._map"]}
{"id": "C39", "title": "Group sums and averages", "statement": "SUM for a group equals the sum of the non-null values of that group and AVG the sum divided by the count, whatever other aggregations are requested with it.", "quantifier": "every set and aggregation list", "why_tests_cant": "Zero values and repeated aggregations over all sets.", "anchors": ["mabel/data/internals/group_by.py: GroupBy.aggregate"]}
{"id": "C40", "title": "Group minima and maxima", "statement": "MIN and MAX for a group are the least and greatest of the non-null values of that group.", "quantifier": "every set including zero and negative values", "why_tests_cant": "Truthiness of zero for all orders of values.", "anchors": ["mabel/data/internals/group_by.py: GroupBy.aggregate, GroupBy.max, GroupBy.min"]}
{"id": "C41", "title": "Different group values form different groups", "statement": "Two records fall in the same group exactly when they agree on every grouping column; every group appears in the result once.", "quantifier": "every set and grouping columns", "why_tests_cant": "Adversarial value splits.", "anchors": ["mabel/data/internals/group_by.py: GroupBy._map, GroupBy.groups"]}
{"id": "C42", "title": "DNF filter semantics", "statement": "A flat list of predicates is a conjunction, a list of lists a disjunction of conjunctions; a predicate on a missing or null field is false for every operator; a mixed list is an error; and adding a conjunct can only narrow the result.", "quantifier": "every filter structure and record", "why_tests_cant": "All filter trees.", "anchors": ["mabel/data/internals/dnf_filters.py: evaluate, DnfFilters"]}
{"id": "C43", "title": "Expression parsing respects precedence", "statement": "The text form of a boolean expression (NOT binds tightest, then AND, then OR, parentheses override) is parsed back to that expression, at any depth.", "quantifier": "every expression tree", "why_tests_cant": "Unbounded nesting.", "anchors": ["mabel/data/internals/expression.py: Expression.parse_expression, parse_and_term, parse_condition, parse_terminal"]}
{"id": "C44", "title": "Expression evaluation is boolean-faithful", "statement": "Evaluating AND/OR/NOT over a record yields a truth value equal to the boolean combination of the truth values of the parts; evaluation of a well-formed expression never raises.", "quantifier": "every expression tree and record", "why_tests_cant": "Unbounded trees and all value types.", "anchors": ["mabel/data/internals/expression.py: Expression.evaluate_recursive"]}
{"id": "C45", "title": "Expression to DNF conversion preserves meaning", "statement": "The filter produced from an expression accepts exactly the records that the expression accepts.", "quantifier": "every expression and record", "why_tests_cant": "All trees.", "anchors": ["mabel/data/internals/expression.py: Expression.to_dnf", "mabel/data/internals/dnf_filters.py: evaluate"]}
{"id": "C46", "title": "LIKE follows SQL LIKE", "statement": "LIKE matches exactly the strings obtained by replacing each percent sign by any string and each underscore by any one character, ignoring case; every other character stands for itself.", "quantifier": "every pattern and string", "why_tests_cant": "Regular-expression metacharacters in patterns, newlines; all strings.", "anchors": ["mabel/utils/text.py: like"]}
{"id": "C47", "title": "SQL dataset names cannot escape", "statement": "The SQL reader accepts a dataset name exactly when it begins with a letter, has only letters, digits, dots, slashes, hyphens and underscores, and no two dots, slashes or hyphens in a row. So the name in a statement that was accepted is a relative path none of whose parts is the parent directory.", "quantifier": "every string, and every statement", "why_tests_cant": "Adversarial input space.", "anchors": ["mabel/data/readers/internals/sql_reader.py: SqlParser.validate_dataset"]}
{"id": "C48", "title": "SQL clause parsing", "statement": "A statement made of SELECT, FROM, WHERE, GROUP BY, HAVING, ORDER BY and LIMIT clauses is parsed into those clauses, whatever its comments, white space and case; one without SELECT or FROM is rejected; parsing always terminates.", "quantifier": "every list of clauses, layout and comments, and every text", "why_tests_cant": "All texts; unbounded nesting of subqueries, and non-termination cannot be observed.", "anchors": ["mabel/data/readers/internals/sql_reader.py: SqlParser.parse, SqlParser.collector, SqlParser.remove_comments, SqlParser.sql_parts"]}
{"id": "C49", "title": "SQL pipeline order and LIMIT", "statement": "The result of a query is WHERE, then GROUP BY/DISTINCT, HAVING, ORDER BY, LIMIT applied in that order, and never has more rows than LIMIT.", "quantifier": "every data set and query", "why_tests_cant": "All data and queries.", "anchors": ["mabel/data/readers/internals/sql_reader.py: SqlReader"]}
{"id": "C50", "title": "ISO date parsing", "statement": "Every valid date or date-time in the supported ISO layouts is parsed to that instant, and any value returned is a valid calendar date (never a nonsense date). A value that is returned is the one that stands in the text.", "quantifier": "every string and every valid date", "why_tests_cant": "Calendar edge cases for all strings.", "anchors": ["mabel/utils/dates.py: parse_iso"]}
{"id": "C51", "title": "Duration parsing", "statement": "A duration written as days, hours, minutes and seconds is parsed to that amount of time, and adding durations in the documented order is additive.", "quantifier": "every quantity", "why_tests_cant": "All quantities.", "anchors": ["mabel/utils/dates.py: parse_delta"]}
{"id": "C52", "title": "Path splitting and date templating", "statement": "Splitting a path into bucket, folders, stem and extension and re-joining gives the original path; date templates for different dates give different paths and each date field appears zero padded.", "quantifier": "every path and every date", "why_tests_cant": "All paths and dates.", "anchors": ["mabel/utils/paths.py: get_parts, build_path, date_format"]}
{"id": "C53", "title": "sanitize", "statement": "sanitize keeps exactly the safe characters in order, and is idempotent.", "quantifier": "every string and safe set", "why_tests_cant": "All strings.", "anchors": ["mabel/utils/text.py: sanitize"]}
{"id": "C54", "title": "Suggestion distance is the edit distance", "statement": "The distance used to suggest parameter names is the Levenshtein edit distance: the least number of insertions, deletions and substitutions turning one name into the other.", "quantifier": "every pair of strings", "why_tests_cant": "Minimality over all edit scripts.", "anchors": ["mabel/utils/parameter_validator.py: get_levenshtein_distance"]}
{"id": "C55", "title": "Random helpers stay in range", "statement": "Whatever the entropy source returns, random_int/random_range/random_choice/random_string return a value within the requested bounds / of the requested length.", "quantifier": "every entropy outcome and every argument", "why_tests_cant": "All entropy outcomes.", "anchors": ["mabel/utils/entropy.py"]}
{"id": "C56", "title": "Flattening nested records keeps every leaf", "statement": "Flattening a nested record gives one entry per leaf value, keyed by its path, with no leaf lost and no two leaves sharing a key when the field names have no separator.", "quantifier": "every nested record", "why_tests_cant": "Unbounded nesting.", "anchors": ["mabel/data/internals/records.py: flatten"]}
{"id": "C57", "title": "HTML output is escaped", "statement": "No field value or heading can introduce markup into the HTML table: the rendered cell contains no angle bracket or quote that came from the data, and different values render differently.", "quantifier": "every value", "why_tests_cant": "Adversarial input space.", "anchors": ["mabel/data/internals/display.py: html_table"]}
{"id": "C58", "title": "Histogram accounts for every value", "statement": "The bin counts of a histogram sum to the number of values, every value falls in a bin of the histogram, and the bins are in ascending value order.", "quantifier": "every list of values and bin count", "why_tests_cant": "Boundary values for all ranges.", "anchors": ["mabel/data/internals/histogram.py"]}
{"id": "C59", "title": "Collected sets partition the records", "statement": "Collecting a set by a column groups each record under its own value: group sizes sum to the number of records, each group has only records with that value, in order.", "quantifier": "every set and column", "why_tests_cant": "All data.", "anchors": ["mabel/data/internals/collected_set.py: CollectedSet"]}
{"id": "C60", "title": "Inline string and number functions", "statement": "LEFT/RIGHT/MID/ROUND/TRUNC/quarter/date helper functions return their documented part for every argument; LEFT(n) and the remainder reassemble the string.", "quantifier": "every argument", "why_tests_cant": "All arguments.", "anchors": ["mabel/data/readers/internals/inline_functions.py"]}
{"id": "C61", "title": "Paging a stream keeps every record", "statement": "Splitting a stream into pages keeps every record once, in order, with every page but the last full.", "quantifier": "every stream and page size", "why_tests_cant": "Page boundary for all lengths.", "anchors": ["mabel/data/readers/internals/threaded_wrapper.py: page_dictset"]}
{"id": "C62", "title": "Computed columns", "statement": "Evaluating a select list over a record gives one output field per selected item, under the name given with AS or else the item as written, with the field's value, the literal or the function's result; selecting * keeps the record's own fields. What a record gives does not depend on the records evaluated before it.", "quantifier": "every select list, in any layout and nesting, and every sequence of records", "why_tests_cant": "Unbounded nesting of calls, any white space and any history of records.", "anchors": ["mabel/data/readers/internals/inline_evaluator.py: Evaluator, build, evaluate_field, get_fields"]}
{"id": "C63", "title": "Reading XML keeps what the document says", "statement": "Reading an XML document gives a nested dictionary that holds every element, every attribute and every text of the document, each as many times as in the document, and nothing else; elements with one tag keep their order.", "quantifier": "every XML document", "why_tests_cant": "Unbounded nesting and repetition of elements; any names and namespaces.", "anchors": ["mabel/data/internals/xmler.py: parse, etree_to_dict, strip_namespace"]}
{"id": "C64", "title": "Tokeniser preserves quoted text", "statement": "Splitting a statement into tokens keeps the characters inside quotes together as one token whatever keywords or operators they contain, and loses no non-blank character.", "quantifier": "every statement", "why_tests_cant": "All strings.", "anchors": ["mabel/utils/token_labeler.py: Tokenizer"]}
{"id": "C65", "title": "Text table row limit", "statement": "A rendered text table shows min(limit, number of records) rows and each has every column.", "quantifier": "every set and limit", "why_tests_cant": "All data.", "anchors": ["mabel/data/internals/display.py: ascii_table, html_table"]}
{"id": "C66", "title": "Failing storage never duplicates stream records, and losses are reported", "statement": "When stores fail, the records found at each target of a stream writer are a subsequence of those routed to it (none duplicated, invented or reordered), and the caller is told by append or finalize when a record could not be stored.", "quantifier": "every history of appends, evictions and finalizes by any number of threads, every pattern of storage failures", "why_tests_cant": "the number of interleavings and failure patterns is unbounded", "anchors": ["mabel/data/writers/stream_writer.py: StreamWriter.finalize", "mabel/data/writers/internals/writer_pool.py: WriterPool.remove_writer", "mabel/data/writers/internals/blob_writer.py: BlobWriter.commit, __del__"]}
{"id": "C67", "title": "A stored set can be read repeatedly", "statement": "Reading a set held in memory, compressed memory or on disk gives all its records in order, whatever was read from it before and however it is read.", "quantifier": "every set and every history of reads", "why_tests_cant": "All histories of reads.", "anchors": ["mabel/data/internals/dictset.py: DictSet.__iter__, DictSet.__next__, DictSet.first", "mabel/data/internals/storage_classes/base_storage_class.py: BaseStorageClass.__next__"]}
{"id": "C68", "title": "A streamed record goes to the folder of its own values", "statement": "A dataset path with {field} placeholders is filled with the record's values, cleaned of unsafe characters: the record is written once for every combination of the values of its placeholder fields (a list field contributes each of its values), each time to the path with every placeholder replaced by that combination's values, and nowhere else.", "quantifier": "every dataset template with any number of placeholders, every record, every list length of every placeholder field", "why_tests_cant": "the number of combinations and the values are unbounded, and values may themselves look like placeholders", "anchors": ["mabel/data/writers/stream_writer.py: StreamWriter.append"]}
{"id": "C69", "title": "A partition filter selects exactly the named segment", "statement": "Reading with a partition filter on a field the data is partitioned by reads the blobs of the segment with that value, its newest valid frame only, and nothing of other segments or partitionings; an operator other than equality is refused.", "quantifier": "every listing of partitioned blobs and every field and value", "why_tests_cant": "Substring matching of names must be right for every set of names.", "anchors": ["mabel/data/readers/internals/base_inner_reader.py: BaseInnerReader.get_list_of_blobs"]}
{"id": "C70", "title": "Without a filter nothing is dropped", "statement": "A reader given no filter delivers every record it can decode from a blob, exactly once and in order.", "quantifier": "every blob, format and contents", "why_tests_cant": "A test uses records that are not empty; the rule by which records are dropped must be known for every record.", "anchors": ["mabel/data/readers/reader.py:_create_line_reader", "mabel/data/readers/internals/parallel_reader.py:ParallelReader.__call__"]}
{"id": "C71", "title": "A filter decides on the stored record", "statement": "With a select and a filter, the reader delivers the selected columns of exactly those stored records that satisfy the filter.", "quantifier": "every select, filter and stored records", "why_tests_cant": "Whether a filter can see a column depends on the combination of select and filter; tests try a few combinations.", "anchors": ["mabel/data/readers/internals/parallel_reader.py:ParallelReader.__call__", "mabel/data/readers/reader.py:_LowLevelReader"]}
{"id": "C72", "title": "What is written is what is read", "statement": "After a batch writer has been given any records for a dataset and day and was finalised successfully, a reader of that dataset and day delivers exactly the accepted records, each once, in the order they were appended, whatever earlier runs left on the disk.", "quantifier": "every dataset template, date, sequence of calls, division into blobs, and history of earlier runs", "why_tests_cant": "It is the composition of writing, naming, listing, frame selection, decoding and reading, over every history and every division of the records into blobs.", "anchors": ["mabel/data/writers/batch_writer.py:BatchWriter", "mabel/data/writers/internals/blob_writer.py:BlobWriter", "mabel/data/readers/internals/base_inner_reader.py:get_list_of_blobs", "mabel/data/readers/reader.py:_create_line_reader", "mabel/data/readers/internals/parallel_reader.py:ParallelReader"]}
{"id": "C73", "title": "A grouping can be asked more than once", "statement": "Asking a grouping of a set for an aggregation gives the same answer however many aggregations it was asked for before.", "quantifier": "every set, grouping columns and sequence of aggregations", "why_tests_cant": "It is about every history of calls on one object.", "anchors": ["mabel/data/internals/dictset.py:DictSet.group_by", "mabel/data/internals/group_by.py:GroupBy.aggregate"]}
{"id": "C74", "title": "What is not an expression is refused", "statement": "Making an expression from a list of tokens raises unless the whole list is the text of a boolean expression.", "quantifier": "every list of tokens", "why_tests_cant": "There are infinitely many malformed texts; that nothing is silently dropped is a statement about all of them.", "anchors": ["mabel/data/internals/expression.py: Expression.__init__, parse_expression, parse_condition, parse_terminal"]}
{"id": "C75", "title": "An expression has no memory", "statement": "The value of an expression on a record does not depend on which or how many records it was evaluated on before.", "quantifier": "every expression, record and history of evaluations", "why_tests_cant": "Evaluation changes the expression; a test evaluates it once or twice.", "anchors": ["mabel/data/internals/expression.py: Expression.evaluate_recursive"]}
{"id": "C76", "title": "Comparisons compare the values", "statement": "In an expression, a comparison of a field with a literal is true exactly when the value of the field stands in that relation to the literal: order and equality of numbers and texts, membership in lists, LIKE, IS NULL.", "quantifier": "every field value, operator and literal", "why_tests_cant": "All values, including texts that look like other things.", "anchors": ["mabel/data/internals/expression.py: Expression.interpret_value, evaluate_recursive", "mabel/utils/token_labeler.py: OPERATORS, function_in, interpret_value"]}
{"id": "C77", "title": "Every record of a blob is found, whatever its format", "statement": "Reading a blob of JSON lines, plain or compressed with ZSTD or LZMA, delivers a record for every line, whatever ends the lines and whether or not the last line has an end; a blob of JSON or XML gives one record, one of LXML a record for every line, one of Parquet or CSV those the library finds in it; reading a ZIP delivers the records of all the files in it whose format is known, in order; giving a format explicitly has the same effect as the blob's name having that extension.", "quantifier": "every blob content, set of files in a ZIP, format and blob name", "why_tests_cant": "All byte sequences and nestings; tests read a few sample files.", "anchors": ["mabel/data/readers/internals/decompressors.py: zstd, lzma, unzip, lines", "mabel/data/readers/internals/parallel_reader.py: KNOWN_EXTENSIONS, ParallelReader"]}
{"id": "C78", "title": "Record helpers change only what they say", "statement": "Selecting fields of a record gives exactly those fields, None where the record has none; ordering a record keeps its fields and sorts their names; setting a field changes that field only and keeps the place of the others.", "quantifier": "every record, list of field names, setter", "why_tests_cant": "Records, names and setters are unbounded.", "anchors": ["mabel/data/internals/records.py: select_record_fields, order, set_value"]}
{"id": "C79", "title": "What is stored in object storage is listed and fetched", "statement": "After any history of batch writer runs on Google Cloud Storage or MinIO, a reader of the dataset whose dates include the runs' date lists exactly the blobs of the latest completed run, each once, not those of a dataset whose name begins alike, and asking for a listed blob gives the bytes that were stored for it.", "quantifier": "every dataset path with date fields, history of completed and uncompleted runs, content of the blobs, other content of the storage, range of dates of the reader", "why_tests_cant": "Needs the services; paths, histories and the other objects in the bucket are unbounded.", "anchors": ["mabel/adapters/google/google_cloud_storage_writer.py: commit", "mabel/adapters/google/google_cloud_storage_reader.py: get_blobs_at_path, get_blob_bytes", "mabel/adapters/minio/minio_writer.py: __init__, commit", "mabel/adapters/minio/minio_reader.py: get_blobs_at_path, get_blob_bytes", "mabel/data/writers/internals/base_inner_writer.py: BaseInnerWriter", "mabel/data/writers/batch_writer.py: finalize"]}
{"id": "C80", "title": "A set that is not stored hands out each record once", "statement": "However a set made from a generator, and the sets derived from it by filter, select, take, distinct and sample, are read and interleaved, no record is handed out twice and records come in the order of the source; reads of the set itself lose nothing; a derived set read to its end has exactly the records its chain of operations means; reading on after taking n records continues with the next one.", "quantifier": "every source, history of derivations and reads in any interleaving, predicate, column selection, number of records and random values", "why_tests_cant": "Histories and interleavings of lazily evaluated sets are unbounded.", "anchors": ["mabel/data/internals/dictset.py: DictSet, filter, select, take, itake, distinct, sample, first, collect_list"]}
{"id": "C81", "title": "A sample is a fraction of the set", "statement": "sample(fraction) gives records of the set, in order and none twice, and over all random values the average number is the fraction of the number of records.", "quantifier": "every set, fraction and sequence of random values", "why_tests_cant": "The average is over all sequences of random values; a test sees one.", "anchors": ["mabel/data/internals/dictset.py: sample"]}
{"id": "C82", "title": "The types of columns are described", "statement": "types(n) describes exactly the columns of the first n records: by the type if all values other than None have the same, as numeric for whole numbers and floats, as empty if there is none, as mixed otherwise.", "quantifier": "every set, storage class and number of records", "why_tests_cant": "Records and values are unbounded.", "anchors": ["mabel/data/internals/dictset.py: types, keys, collect_list, take"]}
{"id": "C83", "title": "A writer stores where it was told and is refused when it was told wrong", "statement": "A writer is constructed exactly when it has a supported format and a schema (or says it has none, for a format that needs none) and a permitted dataset name; it then stores every blob in the folder of the dataset and partitions for the date asked for, however these are given, and a reader of that dataset and date lists exactly the blobs stored there. A batch writer given the frame of another one stores in that frame.", "quantifier": "every dataset name, partitioning, way of giving them, date, format, schema argument, and collection of writers that stored data", "why_tests_cant": "Names, dates, the ways to give them and the collections of writers are unbounded.", "anchors": ["mabel/data/writers/writer.py: Writer.__init__, _get_writer_date", "mabel/data/writers/batch_writer.py: BatchWriter.__init__", "mabel/data/writers/internals/blob_writer.py: BlobWriter.__init__", "mabel/data/validator/__init__.py: schema_loader"]}
{"id": "C84", "title": "A run that dies part way leaves readers what they had", "statement": "Storing a blob on disk puts exactly its bytes under its name and leaves every other file alone. A batch run that dies at any step (between blobs, inside one, before the marker) leaves a reader with exactly the blobs it listed before, unchanged; once the marker is there the reader lists exactly the blobs of the run, each complete.", "quantifier": "every disk, history of earlier runs, set of blobs and bytes of the new run, and every step at which it stops", "why_tests_cant": "A crash can fall between any two system calls of a run of any length over any history; tests kill processes at a few points.", "anchors": ["mabel/adapters/disk/disk_writer.py: DiskWriter.commit", "mabel/adapters/disk/disk_reader.py: DiskReader.get_blob_bytes, get_blobs_at_path", "mabel/data/writers/batch_writer.py: BatchWriter.finalize", "mabel/data/readers/internals/base_inner_reader.py: get_list_of_blobs"]}
{"id": "C85", "title": "The threaded reader hands out every record once and returns", "statement": "Whatever the interleaving of the reader and its threads, the records of each blob are handed out at most once and in their order, nothing else is handed out, and no blob is read over and over. If no thread fails, when the reader ends every page of every blob has been handed out exactly once; and the reader can always go on to its end, with no thread left waiting.", "quantifier": "every set of blobs and pages, number of threads, and interleaving of the threads and the reader, of any length", "why_tests_cant": "The number of interleavings is unbounded; tests see the few the scheduler happens to choose.", "anchors": ["mabel/data/readers/internals/threaded_wrapper.py: processed_reader, _inner_process, page_dictset"]}
{"id": "C86", "title": "Across any history of batch runs that may die, readers see the last finished run", "statement": "Batch runs for a dataset and day go one after the other; each appends any records and then finalizes, or reports a failure (after which it may go on calling), or drops its writer without either, and the process may die after any single step on the disk (a folder, a file, a byte). Afterwards a reader for that day delivers exactly the valid records of the last run that finalized and came to its end, each once and in order; if there is no such run the reader says there is no data. A run without valid records counts as come to its end only if it is asked to mark itself complete all the same (always_complete); then there is no data, whatever earlier runs stored. This stays so when later runs are under way while the reader fetches the blobs.", "quantifier": "every number of runs, what each appends, its settings, the step at which each is stopped, and the moment at which each blob is fetched", "why_tests_cant": "A history is an unbounded sequence of runs with a crash point in each; tests can only stop a few runs at a few points.", "anchors": ["mabel/data/writers/batch_writer.py: BatchWriter.finalize", "mabel/data/writers/internals/blob_writer.py: BlobWriter", "mabel/adapters/disk/disk_writer.py: DiskWriter.commit", "mabel/data/readers/internals/base_inner_reader.py: BaseInnerReader.get_list_of_blobs", "mabel/data/readers/reader.py: Reader"]}
{"id": "C87", "title": "A reader of a range of days sees, day after day, what the last finished run of each day wrote", "statement": "Batch runs, each for a day of its own, go one after the other in any order of days, no two for the same day in the same second; each appends any records and then finalizes, or reports a failure (after which it may go on calling), or drops its writer without either, and the process may die after any single step on the disk. Then a reader from one day to another delivers, for each day of the range in the order of the calendar, exactly the valid records of the last run of that day that finalized and came to its end, each once and in order; days without a finished run add nothing, and if there is none on any day of the range the reader says there is no data (a run without valid records that is marked complete all the same counts as finished, and adds nothing). With the usual partitions (year, month and day folders) the folders of the days are distinct and in the order of the days.", "quantifier": "every range of days, every number of runs for any days, what each appends, and the step at which each is stopped", "why_tests_cant": "It mixes an unbounded sequence of runs with crash points and every range of dates, including ends of months and leap years.", "anchors": ["mabel/data/readers/internals/base_inner_reader.py: BaseInnerReader.get_list_of_blobs", "mabel/utils/dates.py: date_range", "mabel/utils/paths.py: build_path", "mabel/data/writers/batch_writer.py: BatchWriter.finalize", "mabel/adapters/disk/disk_writer.py: DiskWriter.commit", "mabel/data/readers/reader.py: Reader"]}
{"id": "C88", "title": "SQL statements are answered about exactly what finished runs stored", "statement": "Batch runs, each for a day of its own, write records to a dataset on a disk, each then finalizes, or reports a failure (after which it may go on calling), or drops its writer without either, and each may die after any single step. A SQL statement about that dataset, for a range of days, is then answered about exactly the valid records of the last run of each day that finalized and came to its end, day after day and in order: selected columns, conditions, groups, aggregates, DISTINCT, ORDER BY and LIMIT give what the statement asks for of these records (for the statements C49 covers). If no run in the range has finished, every statement that is not refused gives no record and raises DataNotFoundError.", "quantifier": "every range of days, every number of runs, what each appends and the step at which each is stopped, and every statement", "why_tests_cant": "It combines all histories of runs with crash points and all texts of statements.", "anchors": ["mabel/data/readers/internals/sql_reader.py: SqlReader", "mabel/data/readers/reader.py: Reader", "mabel/data/readers/internals/parallel_reader.py: ParallelReader.__call__", "mabel/data/readers/internals/cursor.py: Cursor", "mabel/data/writers/batch_writer.py: BatchWriter.finalize", "mabel/adapters/disk/disk_writer.py: DiskWriter.commit"]}
{"id": "C89", "title": "Readers deliver exactly what was appended to a stream writer and finalized, and at any moment a first part of it", "statement": "Threads append records to a stream writer over a disk, with or without a date, partitioned by the day or by the day and the hour; the writer's own attendant evicts writers in between. After finalize, a reader of a range of days delivers, day by day, exactly the valid records appended on that day, in the order in which the appends obtained the writer (hour by hour if it is partitioned by the hour), and finds no data if there are none. Records that do not pass the schema are never delivered. If appends go on and the process dies at any moment, with any call under way and the disk at any single step, a reader still delivers all that was appended before the finalize and after it, for each day (and hour), the first so many of the records appended since: none is lost in between, delivered twice or out of order, and a blob cut short spoils nothing else. The storage does not fail, the days' folders were empty before, the identifiers of blobs increase, and the format is one that is read record by record.", "quantifier": "every number of threads and every interleaving of their calls with the attendant, every pool size, idle time and blob size, every moment and step at which the process dies, and every range of days", "why_tests_cant": "It ranges over all interleavings of any number of threads and over every step at which the process can die.", "anchors": ["mabel/data/writers/stream_writer.py: StreamWriter.append, finalize, pool_attendant", "mabel/data/writers/internals/writer_pool.py: WriterPool", "mabel/data/writers/internals/blob_writer.py: BlobWriter", "mabel/data/writers/internals/base_inner_writer.py: BaseInnerWriter._build_path", "mabel/adapters/disk/disk_writer.py: DiskWriter.commit", "mabel/adapters/disk/disk_reader.py: DiskReader", "mabel/data/readers/internals/base_inner_reader.py: BaseInnerReader.get_list_of_blobs", "mabel/data/readers/reader.py: Reader"]}
{"id": "C90", "title": "A reader with a partition filter delivers exactly the records with that value that were appended to a stream writer that partitions by the field", "statement": "Threads append records to a stream writer over a disk whose partitions end in by_F/F={F} for a field F of the records. After finalize, a reader of a range of days with the partition filter F = x delivers, day by day, exactly the valid records appended on that day that have the value x for F (or have it in their list of values), each once and in the order in which the appends obtained the writer, and finds no data if there are none. If the process dies at any moment, with any call under way and the disk at any single step, a reader still delivers all of these that were appended before a finalize and after it, for each day, the first so many of those appended since.", "quantifier": "every field, every value, every number of threads and every interleaving of their calls with the attendant, every pool size, idle time and blob size, every moment and step at which the process dies, and every range of days", "why_tests_cant": "It ranges over all values and lists of values of a field, all interleavings of any number of threads and every step at which the process can die.", "anchors": ["mabel/data/writers/stream_writer.py: StreamWriter.append, finalize", "mabel/data/writers/internals/writer_pool.py: WriterPool", "mabel/utils/paths.py: date_format", "mabel/utils/text.py: sanitize", "mabel/adapters/disk/disk_writer.py: DiskWriter.commit", "mabel/data/readers/internals/base_inner_reader.py: BaseInnerReader.get_list_of_blobs", "mabel/data/readers/reader.py: Reader"]}
{"id": "C91", "title": "What several processes, or one that is started again, stream into a dataset is all read, whichever of them die", "statement": "Any number of processes append records to their own stream writers for one dataset on one disk, at the same time or one after another. When all have been finalized, a reader of a range of days delivers, day by day, exactly the valid records appended by all of them on that day, each once and those of one process in the order of its appends. If any of them die, at any moment and with the disk at any single step of theirs, a reader still delivers all that each had appended before a finalize and, after it, the first so many of those it appended since; no process takes away what another has stored. Of a process that is started again and again the records are delivered in the order of its starts.", "quantifier": "every number of processes and of threads in them, every interleaving of the calls in a process and of the steps of the processes on the disk, every moment and step at which any of them dies, every pool size, idle time and blob size of each, and every range of days", "why_tests_cant": "It ranges over all interleavings of any number of processes and their threads and every set of steps at which they can die.", "anchors": ["mabel/data/writers/stream_writer.py: StreamWriter.append, finalize", "mabel/data/writers/internals/writer_pool.py: WriterPool", "mabel/data/writers/internals/base_inner_writer.py: BaseInnerWriter._build_path, _get_node", "mabel/adapters/disk/disk_writer.py: DiskWriter.commit", "mabel/adapters/disk/disk_reader.py: DiskReader.get_blobs_at_path", "mabel/data/readers/reader.py: Reader"]}
{"id": "C92", "title": "A caller who reads a growing dataset in sittings, with saved cursors, is given every record once", "statement": "A caller reads a dataset again and again while it grows: each time it makes a new reader with the cursor it saved the time before, takes some records and saves the cursor. Each time it is given the next of the records that are there by then, from where it left off, and when it reads to the end it has in all been given every record once, in order. So it is of a caller who follows a day, or the records of a day with one value of a field, of a dataset to which threads of a process append with a stream writer: if the process has been finalized at last, it has been given every valid record appended on that day, once and in the order of the appends, whatever the moments of its sittings.", "quantifier": "every number of sittings, at every moment and with any calls under way, every number of records taken at each, every growth of the dataset between them, every interleaving of the threads and every record, pool size, idle time and blob size", "why_tests_cant": "It ranges over all histories of growth and all places at which a caller may stop between them; a test follows one history.", "anchors": ["mabel/data/readers/internals/cursor.py: Cursor", "mabel/data/readers/reader.py: Reader, _LowLevelReader", "mabel/data/writers/stream_writer.py: StreamWriter.append, finalize", "mabel/adapters/disk/disk_reader.py: DiskReader", "mabel/adapters/disk/disk_writer.py: DiskWriter.commit"]}
{"id": "C93", "title": "The error being handled can be rendered in full, whatever led to it", "statement": "Called while an error is being handled, render_error_stack returns a text that shows the error and each that led to it (the error it was raised from or, failing that, the one that was being handled when it was raised, unless that was to be hidden), in that order; for each the places it passed through in order, with file, line and function, the local variables with their values, and the lines of code around the line, with that line marked and no other. No line of the text is longer than 120 characters, and nothing but white space is lost by breaking lines. It always returns.", "quantifier": "every graph of errors that refer to one another as causes and contexts, every traceback, every set of local variables, every source file and line", "why_tests_cant": "The ways errors can lead to one another, and where in which files they pass, are unbounded; a test renders one error.", "anchors": ["mabel/errors/render_error_stack.py: render_error_stack, _build_error_stack, _render_error_stack, _render_locals, _read_from_code, bar_label, wrap_text"]}
{"id": "C94", "title": "Words for colours in a text are replaced by their codes, and nothing else is", "statement": "colorize(text, True) gives the text with every word for a colour ({RED}, {BOLD_RED}, ..., {OFF}) replaced by its ANSI code and all else as it was, and doing it again changes nothing; colorize(text, False) gives the text with these words taken out, so that none is left.", "quantifier": "every text, with words for colours at any places, next to or within one another, and with any other braces", "why_tests_cant": "The replacements are made one after the other, each on the result of those before it; whether one makes a word for a later (or earlier) one depends on the text.", "anchors": ["mabel/utils/colors.py: colorize, COLORS"]}
{"id": "C95", "title": "The context of a job has the caller's settings over those of its configuration file", "statement": "build_context(**settings) reads the configuration file that is asked for (config.json if none is) and gives, for each name, what the caller gave, or else what the file has; under the name config there is always a dictionary. If there is no such file an IndexError is raised, if it is not a JSON object a ValueError. Which file is read is settled by what files there are.", "quantifier": "every set of files, every configuration and all settings of the caller", "why_tests_cant": "It is about all combinations of names in the file and from the caller and all layouts of folders.", "anchors": ["mabel/utils/common.py: build_context"]}
{"id": "C96", "title": "A reader that is given records delivers each of them once", "statement": "A Reader with the NullReader and records in data delivers these records, each once and in the order they were given, whatever dates it is asked for.", "quantifier": "every list of records, dataset and range of dates", "why_tests_cant": "It ranges over all ranges of dates; a test with the default date reads one day.", "anchors": ["mabel/adapters/null/null_reader.py: NullReader", "mabel/data/readers/internals/base_inner_reader.py: BaseInnerReader.get_list_of_blobs", "mabel/data/readers/reader.py: Reader"]}
{"id": "C97", "title": "A reader of a range of days on object storage delivers the last finished run of each day", "statement": "Batch writers on Google Cloud Storage or MinIO run for any days, one after the other; each then finalizes, or reports a failure (after which it may go on calling), or drops its writer without either, and each may die after any of the objects it stores. A reader of a range of days then delivers, day after day, exactly the valid records of the last run of the day that finalized and came to its end, each once and in the order they were appended; if no run of these days came to its end, it says that there is no data. A reader that goes on from a saved cursor, or that reads with several processes, gives the same records.", "quantifier": "every dataset with a folder for each day, every sequence of runs with any records, every object after which each of them dies, every other content of the storage and every range of days", "why_tests_cant": "It ranges over all histories and all crash points; tests of these adapters need a service and run one writer to its end.", "anchors": ["mabel/adapters/google/google_cloud_storage_writer.py: GoogleCloudStorageWriter.commit", "mabel/adapters/google/google_cloud_storage_reader.py: GoogleCloudStorageReader", "mabel/adapters/minio/minio_writer.py: MinIoWriter.commit", "mabel/adapters/minio/minio_reader.py: MinIoReader.get_blobs_at_path", "mabel/data/writers/batch_writer.py: BatchWriter.finalize", "mabel/data/readers/internals/base_inner_reader.py: BaseInnerReader.get_list_of_blobs", "mabel/data/readers/internals/cursor.py: Cursor", "mabel/data/readers/internals/multiprocess_wrapper.py: processed_reader"]}
{"id": "C98", "title": "A reader that reads while runs are under way gets whole runs only", "statement": "Batch writers run for any days and overlap in time in any way: their steps on the disk interleave, each then finalizes, or reports a failure (after which it may go on calling), or drops its writer without either, and each may die after any of its steps. No step fails because of another run. A reader of a range of days that lists the folders of the days at any moments while they run, and reads the blobs at any later moments, delivers, day after day, exactly the valid records of the latest begun run of the day that had finalized and come to its end when the folder was listed, each once and in the order they were appended, and nothing of a run that had not; if there is no such run, it says that there is no data.", "quantifier": "every dataset with a folder for each day, every number of runs with any records, every interleaving of their steps, every step after which each of them dies, every moment of each listing and of each read, and every range of days", "why_tests_cant": "It ranges over all interleavings of all writers and a reader; a test sees the schedule that the machine happens to produce.", "anchors": ["mabel/data/writers/batch_writer.py: BatchWriter.finalize", "mabel/adapters/disk/disk_writer.py: DiskWriter.commit", "mabel/adapters/disk/disk_reader.py: DiskReader.get_blobs_at_path", "mabel/adapters/disk/disk_reader.py: DiskReader.get_blob_bytes", "mabel/data/readers/internals/base_inner_reader.py: BaseInnerReader.get_list_of_blobs"]}
{"id": "C99", "title": "A job that is split over writers that share a frame is read as a whole", "statement": "Several batch writers are given the same frame (because a job is split), newer than that of any run for the day before. Their steps on the disk interleave in any way. No step fails because of another part. When every part has finalized and ended, a reader of a range of days delivers, for the day of the job, each record that was valid for any of the parts exactly once, the records of each part in the order they were appended to it, and for the other days what it delivered before. Until the last part has ended, or if a part reports a failure, it delivers for every day what it delivered before.", "quantifier": "all numbers of parts, records, validators, blob sizes and non-text formats of the parts, all interleavings of their steps and all points at which they stand or die, all histories of earlier runs (which may have died), all ranges of days", "why_tests_cant": "a test runs the parts one after the other in one process; the interleavings of the steps of several writers, and the points at which one of them has ended and another has not, cannot be enumerated", "anchors": ["mabel/data/writers/batch_writer.py: BatchWriter.__init__ (frame_id), finalize", "mabel/adapters/disk/disk_writer.py: DiskWriter.commit", "mabel/data/readers/internals/base_inner_reader.py: BaseInnerReader.get_list_of_blobs", "mabel/data/readers/reader.py: Reader"]}
{"id": "C100", "title": "A reader with a filter delivers exactly the matching records of the last finished runs", "statement": "After any history of batch runs that may be stopped at any moment, a reader of a range of days with a filter (a text with a condition, a list of tuples, or a list of lists of tuples) delivers, of the records that the last finished run of each day stored, exactly those that meet the filter, day after day, each once and in the order they were written. With a selection, the filter is about the selected columns. Whatever is given as a filter is applied or refused, and no record that meets it is missing because the filter could not be applied to another.", "quantifier": "all filters, records, selections, histories of runs and ranges of days", "why_tests_cant": "histories, filters and records are unbounded", "anchors": ["mabel/data/readers/reader.py: Reader, _LowLevelReader.__init__, _create_line_reader", "mabel/data/internals/dnf_filters.py: DnfFilters", "mabel/data/internals/expression.py: Expression", "mabel/data/readers/internals/parallel_reader.py: ParallelReader.__call__"]}
{"id": "C101", "title": "A stored set is what it was made from, whatever is done with it and its relatives", "statement": "Sets that are stored (in memory, on disk or in compressed memory) and sets derived from them by filter, select, take, distinct and sample can be read, looped over, counted and derived from in any order and as often as one likes: each gives the records it was made from, in order, and the storage class makes no difference.", "quantifier": "all records, storage classes and programs (sequences of uses of a set and the sets derived from it, and from those, to any depth)", "why_tests_cant": "programs and sets are unbounded, and the state that is shared between a set and its readers shows only in certain orders of use", "anchors": ["mabel/data/internals/dictset.py: DictSet", "mabel/data/internals/storage_classes/storage_class_memory.py: StorageClassMemory", "mabel/data/internals/storage_classes/storage_class_disk.py: StorageClassDisk", "mabel/data/internals/storage_classes/storage_class_compressed_memory.py: StorageClassCompressedMemory", "mabel/data/internals/collected_set.py: CollectedSet"]}
{"id": "C102", "title": "Filtering a set keeps what the filter says, and the same as giving the filter to the reader", "statement": "filter of a set keeps exactly the records that meet the filter, in order, whether the filter is a text, a tuple, a list of tuples, a list of lists of tuples or a function; after any history of runs, it makes no difference whether the filter is given to the reader or to the set a reader without one returns; and a text keeps the same as the tuples it is converted to.", "quantifier": "all records, filters of every kind and histories of runs that may be stopped at any moment", "why_tests_cant": "filters, records and histories are unbounded, and the two routes (reader and set) use different code", "anchors": ["mabel/data/internals/dictset.py: DictSet.filter", "mabel/data/readers/reader.py: Reader", "mabel/data/internals/dnf_filters.py: DnfFilters", "mabel/data/internals/expression.py: Expression, Expression.to_dnf"]}
{"id": "C103", "title": "The words of a text are its tokens, and safe names of fields keep what is safe", "statement": "tokenize gives the words of the text in lower case, one after the other, without punctuation: no letter or digit is lost or moved, no token is empty, and tokens are their own tokens. safe_field_name keeps exactly the letters, digits, underscores and hyphens, and different fields keep different names.", "quantifier": "all texts and names", "why_tests_cant": "texts are unbounded", "anchors": ["mabel/utils/text.py: tokenize", "mabel/utils/__init__.py: safe_field_name"]}
{"id": "C104", "title": "No two blobs get the same name, and names sort in the order blobs were stored", "statement": "The names that writers make for blobs, from the clock, the machine and the process, are all different, whichever writers, processes and machines make them; the names one process makes sort in the order in which it made them, so that readers deliver its records in the order they were appended.", "quantifier": "all clocks, machines, processes, numbers of writers and sequences of blobs", "why_tests_cant": "collisions depend on the clock and on schedules of several processes that tests do not control", "anchors": ["mabel/data/writers/internals/base_inner_writer.py: BaseInnerWriter._build_path, BaseInnerWriter._get_node"]}
{"id": "C105", "title": "What a writer accepts is kept, whatever it writes to", "statement": "When append and finalize return, the records are in the target that the writer was made for, whether that is a disk, a bucket or a table of BigQuery, in the table that was named, with its columns and the expiration of its partitions.", "quantifier": "all configurations, sequences of calls and states of the target", "why_tests_cant": "for each target the effect of every sequence of calls is needed, and calls that lose data raise nothing", "anchors": ["mabel/adapters/google/bigquery_writer.py: GoogleBigQueryWriter.commit, GoogleBigQueryWriter._get_table", "mabel/data/writers/internals/blob_writer.py: BlobWriter.commit"]}
{"id": "C106", "title": "Functions have the value SQL gives them, also where a field has none", "statement": "Every function that can be written in a statement can be called; with a number of arguments it does not take it raises. Where an argument has no value the function has none. ROUND gives the nearest whole number (of two the even one), TRUNC and INTEGER leave out what is after the point, LEN counts, SORT gives the values in ascending order with equal ones in their order and refuses values that cannot be compared, BETWEEN is true of what lies between its bounds. No record is lost from the answer to a statement because a field has no value.", "quantifier": "all functions, argument lists, records, datasets and statements of the described form", "why_tests_cant": "functions are given every value that a record can hold, of any type, and one bad value among millions can end a blob", "anchors": ["mabel/data/readers/internals/inline_functions.py: FUNCTIONS, parse_number, concat, to_string, add_days, diff_days", "mabel/data/readers/internals/inline_evaluator.py: evaluate_field"]}
{"id": "C107", "title": "SQL statements and filters on object storage are answered about exactly what finished runs stored", "statement": "Batch writers on Google Cloud Storage or MinIO run for any days; each finalizes, reports a failure or drops its writer, and each may die after any of the objects it stores. A SQL statement about the dataset for a range of days, or a reader with a filter, is then answered about exactly the valid records of the last run of each day that came to its end, day after day and in order. If no run of these days came to its end, every statement that is not refused gives no record and raises DataNotFoundError.", "quantifier": "both services, every range of days, every sequence of runs with any records, every object after which each dies, every statement of the forms of C49 and every filter of C100", "why_tests_cant": "the answer depends on the whole history of the bucket, on the object at which a run died, and on the statement", "anchors": ["mabel/adapters/google/google_cloud_storage_reader.py: GoogleCloudStorageReader", "mabel/adapters/minio/minio_reader.py: MinIoReader", "mabel/data/readers/internals/sql_reader.py: SqlReader", "mabel/data/readers/reader.py: Reader"]}
{"id": "C108", "title": "The mean and the variance of a column", "statement": "mean(column) of a set of records is the sum of the values divided by their number, over the records that have the column; it lies between the least and the greatest. variance(column) is the sum of the squares of the differences to the mean divided by one less than the number of values; it is never negative, and nought if and only if all values are equal. Neither depends on the order of the records. A column with anything but numbers (such as None) raises TypeError; a mean of nothing and a variance of fewer than two values raise an error.", "quantifier": "every set of records, every column, all whole numbers, fractions and booleans, every order of the records", "why_tests_cant": "the values, their number and their order are unbounded", "anchors": ["mabel/data/internals/dictset.py: DictSet.mean, DictSet.variance, DictSet.collect_list"]}
{"id": "C109", "title": "SQL statements and filters about streamed records", "statement": "Threads, of one process or of several, append records to stream writers while others finalize or evict, and the disk takes the steps of storing them; any process may die at any moment. SQL statements (SELECT, WHERE, GROUP BY, HAVING, DISTINCT, ORDER BY, LIMIT) and readers with filters about a range of days are answered as if the dataset were, day by day, the first so many of the valid records that were appended on the day, in the order of the appends, with all that was appended before a finalize whose blobs are written; exactly all of them if nothing is under way. If there are none, a statement raises DataNotFoundError.", "quantifier": "every schedule of threads and the attendant, every number of processes, every interleaving of their steps, every crash point, every record, every statement and filter under the conditions of C49 and C42, every range of days", "why_tests_cant": "schedules, crash points, records and statements cannot be enumerated", "anchors": ["mabel/data/writers/stream_writer.py: StreamWriter", "mabel/data/readers/internals/sql_reader.py: SqlReader", "mabel/data/readers/reader.py: Reader", "mabel/data/readers/internals/parallel_reader.py: ParallelReader"]}
{"id": "C110", "title": "WEEK is the week of ISO 8601", "statement": "WEEK of a datetime is the number of its week by ISO 8601: weeks run from Monday to Sunday, and week 1 of a year is the one with its first Thursday. A text that is a date is taken for it, and anything that is not a date has no week (None). The numbers are 1 to 53, all days of one week have the same number, also at the turn of the year, and 4 January is always in week 1. YEAR and WEEK together do not name a week: they are those of different years at the turn of the year.", "quantifier": "every datetime of the years 1 to 9999 and every text", "why_tests_cant": "the turn of the year falls on different weekdays in leap years and others, and there are 9999 years", "anchors": ["mabel/data/readers/internals/inline_functions.py: get_week"]}
{"id": "C111", "title": "Remembered results are those that would be computed", "statement": "Functions that remember their last results (the patterns of LIKE, the types of the parts of statements, MD5) give, whatever was asked for before and in whatever order, the result they would give without remembering, and never keep more results than they may. MD5 is the digest of the text of a value, whatever was asked for before.", "quantifier": "every history of calls, every argument, every number of results that may be kept", "why_tests_cant": "a wrong result depends on what the process did before, so histories would have to be enumerated", "anchors": ["mabel/data/readers/internals/inline_functions.py: get_md5", "mabel/utils/text.py: like, _sql_like_fragment_to_regex", "mabel/utils/token_labeler.py: get_token_type"]}
{"id": "C112", "title": "Streaming on object storage loses nothing that is finalized", "statement": "Threads append to a stream writer on Google Cloud Storage or MinIO, by the day, by the hour or by the values of a field. A reader of a range of days, with a partition filter if there are values of a field, delivers, day by day and in the order of the appends, exactly the valid records when the writer is finalized and its blobs are stored. Whenever storing stops, after any number of blobs and with any calls under way, it delivers what was finalized and stored before and then the first so many of the records appended since. Both services end up with the same objects and deliver the same records; what the libraries do with blobs that are cut short does not matter.", "quantifier": "every dataset by the day, every number of threads and calls, every interleaving, every number of blobs stored, both services, every content of the buckets beside the folders of the days", "why_tests_cant": "depends on interleavings of threads, on when idle writers are closed, and on the point at which storing stops", "anchors": ["mabel/data/writers/stream_writer.py: StreamWriter", "mabel/data/writers/internals/writer_pool.py: WriterPool", "mabel/data/writers/internals/blob_writer.py: BlobWriter", "mabel/adapters/google/google_cloud_storage_writer.py: GoogleCloudStorageWriter", "mabel/adapters/google/google_cloud_storage_reader.py: GoogleCloudStorageReader", "mabel/adapters/minio/minio_writer.py: MinIoWriter", "mabel/adapters/minio/minio_reader.py: MinIoReader", "mabel/data/readers/reader.py: Reader"]}
{"id": "C113", "title": "Wrapping a text keeps what can be seen of it, in lines that are not too long", "statement": "wrap_text(text, width) with a width above zero always returns. What can be seen of the text comes out in the same order and nothing else that can be seen does; no line is longer than the width; a word without hyphens that is no longer than a line is on one line; a longer word fills its lines completely; lines that need no wrapping stay as they are; and of a text of one line every line but the first begins with something to be seen. A width of zero or less raises ValueError. Wrapping the result again does not change it. A date or a number with hyphens is not broken if it fits on a line; a hyphenated word that does not fit is broken after its hyphen.", "quantifier": "every text, every width, and every choice of which characters regular expressions count as letters and digits", "why_tests_cant": "where a line is broken depends on the lengths of all chunks before it, on hyphens and dashes next to it and on white space of many kinds; a sample of texts cannot cover their combinations", "anchors": ["mabel/utils/text.py:wrap_text", "mabel/errors/render_error_stack.py:wrap_text"]}
{"id": "C114", "title": "A loss of power leaves either the data from before a run or the data of the run", "statement": "A batch run on a disk has taken any number of its steps, or come to its end, when the computer loses power; any of the files it has made may then be missing or hold anything. A reader delivers either exactly what it delivered before the run, or exactly the data of the run.", "quantifier": "every dataset, every history of earlier runs, every number of steps of the run, and every choice of what is left of its files", "why_tests_cant": "what a disk keeps of writes that were not flushed cannot be provoked by a test; there are exponentially many outcomes", "anchors": ["mabel/adapters/disk/disk_writer.py:DiskWriter.commit", "mabel/data/writers/batch_writer.py:BatchWriter.finalize"]}
{"id": "C115", "title": "SQL statements and filters about what stream writers have stored on object storage", "statement": "Threads append to a stream writer on Google Cloud Storage or MinIO. Statements and filters about a range of days are answered as if the dataset were the valid records appended on each day, in the order of the appends: all of them after finalize; after a crash or with calls under way, all that were appended before the last finalize and the first so many of those appended since. With a partition filter for one value of a field, the records that have it. If there are none, every statement raises DataNotFoundError.", "quantifier": "every number of threads, calls, schedules, pool sizes and blob sizes, every number of blobs stored, both services, every statement C49 covers and filter C42 covers", "why_tests_cant": "schedules, crash points and statements are unbounded", "anchors": ["mabel/data/writers/stream_writer.py:StreamWriter.append", "mabel/data/readers/internals/sql_reader.py:SqlReader", "mabel/adapters/google/google_cloud_storage_writer.py:GoogleCloudStorageWriter.commit", "mabel/adapters/minio/minio_writer.py:MinIoWriter.commit"]}
{"id": "C116", "title": "Several processes with stream writers for one dataset on object storage", "statement": "Threads of several processes append to stream writers for one dataset on Google Cloud Storage or MinIO. Whatever the processes do, and however many of the blobs each has handed over are stored in whatever mixture, a reader of a range of days delivers of each process the first so many of the valid records it appended on each day, in the order of the appends, and among them all it appended before a finalize whose blobs are stored. When all have been finalized and everything is stored, exactly what each appended is delivered. A process that is started again and again leaves its records in the order of its lives. The same holds by the hour, with a filter for a value of a field, and for SQL statements.", "quantifier": "every number of processes and threads, calls, schedules, pool sizes and blob sizes, every mixture of the uploads, both services", "why_tests_cant": "schedules, crash points and mixtures of uploads are unbounded", "anchors": ["mabel/data/writers/stream_writer.py:StreamWriter.append", "mabel/data/writers/internals/blob_writer.py:BlobWriter.commit", "mabel/adapters/google/google_cloud_storage_writer.py:GoogleCloudStorageWriter.commit", "mabel/adapters/minio/minio_writer.py:MinIoWriter.commit", "mabel/data/readers/internals/base_inner_reader.py:BaseInnerReader.get_list_of_blobs"]}
{"id": "C117", "title": "A cursor is for the data it was saved for: reading a day in sittings while it is written again", "statement": "A caller reads a day in sittings: in each it takes some records and saves its cursor, and a new reader goes on from it. As long as no newer run of a batch writer comes to its end the caller gets each record of the last finished run once, in order, whatever runs start, are stopped or fail meanwhile. When a newer run has been finished, a caller that goes on with the cursor it saved should get all records of the newer run, or be told that the data is another.", "quantifier": "every history of runs of a batch writer for a dataset and a day, any number of sittings with any number of records taken, any disk between them; for the replaced data: every set of blobs before and after, and every place at which the cursor was saved", "why_tests_cant": "what a cursor means depends on how the records of the old and of the new run were cut into blobs, and on what other runs have left on the disk at each sitting; a test fixes one cut and one history", "anchors": ["mabel/data/readers/internals/cursor.py:InternalCursor", "mabel/data/readers/reader.py:Reader", "mabel/data/writers/batch_writer.py:BatchWriter.finalize"]}
{"id": "C118", "title": "Following, in sittings, a day that a process streams to object storage", "statement": "Threads of a process append records to a stream writer on Google Cloud Storage or MinIO, while a caller follows one day, or one value of a field on one day: again and again it makes a reader with the cursor it saved the time before, takes some records and saves its cursor. At every moment, with any calls under way and any number of the blobs handed over stored, it is given the next records of those that a reader without a cursor would deliver then. Read to its end at last, when no call is under way, no writer is open and all has been stored, it has been given every valid record appended for the day, once each and in order. Unlike on a disk nothing is lost if the caller comes while a blob is being stored, because an object is there with all its bytes or not at all.", "quantifier": "Every process, number of threads, sequence of calls and schedule; all times of blobs being stored; every number of sittings at any moments with any number of records taken in each; all contents of the storage elsewhere; every dataset with a folder for each day; both services; every hash that tells the listed names apart.", "why_tests_cant": "A test follows one schedule with a few sittings against a mock; the property ranges over all interleavings of threads, uploads and sittings.", "anchors": ["mabel/adapters/google/google_cloud_storage_writer.py: GoogleCloudStorageWriter.commit", "mabel/adapters/minio/minio_writer.py: MinIoWriter.commit", "mabel/adapters/google/google_cloud_storage_reader.py: GoogleCloudStorageReader", "mabel/adapters/minio/minio_reader.py: MinIoReader.get_blobs_at_path", "mabel/data/readers/internals/cursor.py: Cursor", "mabel/data/readers/reader.py: Reader", "mabel/data/writers/stream_writer.py: StreamWriter"]}
{"id": "C119", "title": "Following, in sittings, a range of days that daily batch runs write", "statement": "Batch runs are made one after the other, each for a day, and each may be stopped at any step or told to fail. A caller reads a range of days in sittings: again and again it makes a reader with the cursor it saved the time before, takes some records and saves its cursor; if it is told that there is no data it comes back later. As long as the runs that finish after it began are each for a later day than those that finished before, each sitting gives the next of the records that are there by then, and all sittings together, with a last one that reads to the end, give, day after day, exactly what was valid for the last finished run of each day, each record once and in order; on a disk, on Google Cloud Storage, and for one day on MinIO.", "quantifier": "Every sequence of runs with any records, stopped anywhere; every number of sittings between any of the runs, with any number of records taken in each; every range of days and dataset with a folder for each day; all contents of the storage elsewhere; every hash that tells the listed names apart.", "why_tests_cant": "A test follows one sequence of runs with sittings at chosen moments; the claim is about every placing of sittings among any runs, stopped anywhere.", "anchors": ["mabel/data/readers/reader.py: Reader, _LowLevelReader", "mabel/data/readers/internals/cursor.py: Cursor", "mabel/data/readers/internals/base_inner_reader.py: get_list_of_blobs", "mabel/data/writers/batch_writer.py: BatchWriter", "mabel/adapters/google/google_cloud_storage_reader.py: get_blobs_at_path", "mabel/adapters/minio/minio_reader.py: get_blobs_at_path"]}
{"id": "C120", "title": "A reader on object storage that reads while runs are under way gets whole runs only", "statement": "Any number of processes have a batch writer each, for the same dataset on Google Cloud Storage or on MinIO, each for a day, and store their objects in any order of time; each may die after any of them. A reader of a range of days that lists the folders at any moments while this goes on, and reads each blob at any later moment, delivers, day after day, exactly the records that were valid for the last run of the day (in the order in which the runs began) that was done when the folder of the day was listed: each once, in the order they were appended, and nothing of a run that is not done. If no run is done it says that there is no data.", "quantifier": "Every number of runs with any records; every order in which their objects are stored, and every place at which each of them dies; every moment at which each folder is listed and each blob read; every range of days; every other content of the storage.", "why_tests_cant": "A test runs one interleaving of the writers and looks at one moment; the claim is about every interleaving and every moment of listing and reading.", "anchors": ["mabel/data/writers/batch_writer.py: BatchWriter.__init__, finalize", "mabel/adapters/google/google_cloud_storage_writer.py: commit", "mabel/adapters/google/google_cloud_storage_reader.py: get_blobs_at_path, get_blob_bytes", "mabel/adapters/minio/minio_writer.py: commit", "mabel/adapters/minio/minio_reader.py: get_blobs_at_path, get_blob_bytes", "mabel/data/readers/internals/base_inner_reader.py: get_list_of_blobs", "mabel/data/readers/reader.py: Reader"]}
{"id": "C121", "title": "A job on object storage that is split over writers that share a frame is read as a whole", "statement": "Several batch writers on Google Cloud Storage or on MinIO are given the same frame (because a job is split), newer than that of any run for the day before. They store their objects in any order of time. When every part has finalized and stored all it has, a reader of a range of days delivers, for the day of the job, each record that was valid for any of the parts exactly once, the records of each part in the order they were appended to it, and for the other days what it delivered before. Until the last part has ended, or if a part reports a failure, it delivers for every day what it delivered before.", "quantifier": "Every number of parts with any records, validators, blob sizes and non-text formats; every order in which their objects are stored and every place at which each of them stands or dies; every history of earlier runs (which may have died); every range of days; every other content of the storage; both services.", "why_tests_cant": "A test runs the parts one after the other in one process; the interleavings of several writers, and the moments at which one of them has ended and another has not, cannot be enumerated.", "anchors": ["mabel/data/writers/batch_writer.py: BatchWriter.__init__ (frame_id), finalize", "mabel/adapters/google/google_cloud_storage_writer.py: GoogleCloudStorageWriter.commit", "mabel/adapters/minio/minio_writer.py: MinIoWriter.commit", "mabel/data/readers/internals/base_inner_reader.py: BaseInnerReader.get_list_of_blobs", "mabel/data/readers/reader.py: Reader"]}
{"id": "C122", "title": "Sets stored on disk keep their own records, and leave no files behind", "statement": "Any number of processes make sets with the storage class DISK, drop them, end or are killed, in any order of time. A set that a running process has made and not dropped gives the records it was made from, each time it is gone through. A file in the directory for temporary files that was not there before belongs to a set that is in use, or was in use when its process was killed; when all processes have ended orderly the directory is as it was before. Files that were there before are never changed or removed.", "quantifier": "every history of processes that ask for names, store records, drop sets, exit and are killed, every directory at the start, all records", "why_tests_cant": "whether a file is still that of its set depends on what other processes do between the moment a name is given and the moment the file is opened, and until the process ends; tests make one set in one process", "anchors": ["mabel/data/internals/storage_classes/storage_class_disk.py:StorageClassDisk.__init__", "mabel/data/internals/storage_classes/storage_class_disk.py:StorageClassDisk.__del__", "mabel/data/internals/storage_classes/storage_class_disk.py:StorageClassDisk._read_file", "mabel/utils/paths.py:silent_remove"]}
{"id": "C123", "title": "A finalized frame stays as it is until its writer is given more records", "statement": "Once a batch writer's finalize has returned, the blobs of its frame stay as they are: calling finalize again, with or without a failure, appending records that are refused, and dropping the writer store no blob, also if the storage fails. Records that are appended to the writer later are stored in further blobs of the same frame, each valid one exactly once and in order, and the blobs that were there stay; a reader should be given all of these records or none.", "quantifier": "all sequences of calls before and after a finalize, all formats, all patterns of storage failures", "why_tests_cant": "it is about every sequence of calls that can follow a finalize; tests stop at the first", "anchors": ["mabel/data/writers/batch_writer.py:BatchWriter.finalize", "mabel/data/writers/writer.py:Writer.finalize", "mabel/data/writers/internals/blob_writer.py:BlobWriter.commit", "mabel/data/writers/internals/blob_writer.py:BlobWriter.__del__"]}
{"id": "C124", "title": "Dates given as numbers", "statement": "A date given as a whole number is the date and time that many seconds after the start of 1970, for every number from the first second of the year 1 to the last second of the year 9999, and every date and time is what its number of seconds is read as. A reader given its start and end as such numbers visits the dates it visits given the same dates and times. A number that is no date is refused, and the digits of a date are read as that date. What is given is the same date to a writer as to a reader. A number with a part after the point is the second it is in, up to half a microsecond, and a whole number is the same date as a float.", "quantifier": "every whole number, every date and time, every present time and every way of giving the other end of the range", "why_tests_cant": "Numbers are unbounded, and what happens changes with their size: tests try a few timestamps of the present.", "anchors": ["mabel/utils/dates.py: parse_iso", "mabel/data/readers/internals/base_inner_reader.py: BaseInnerReader.__init__, get_list_of_blobs"]}
