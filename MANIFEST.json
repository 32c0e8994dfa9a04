{
 "claims": [
  {
   "property": "C01",
   "status": "proved",
   "theorems": [
    "Mabel.Writer.C01_conservation",
    "Mabel.Writer.C01_dropped"
   ],
   "note": "any calls, any format, working storage, with a finalize or with the writer dropped; failing storage is C05"
  },
  {
   "property": "C02",
   "status": "proved",
   "theorems": [
    "Mabel.Writer.C02_blob_size",
    "Mabel.Writer.C02_text_bound",
    "Mabel.Writer.C02_blobs_are_full",
    "Mabel.Writer.C02_maximum_is_exceeded"
   ],
   "note": "the documented maximum itself is not respected: C02_maximum_is_exceeded"
  },
  {
   "property": "C03",
   "status": "proved",
   "theorems": [
    "Mabel.Writer.C03_append_count"
   ],
   "note": "the blob writer's append; Writer.append returns nothing"
  },
  {
   "property": "C04",
   "status": "proved",
   "theorems": [
    "Mabel.Writer.C04_rejected_has_no_effect"
   ],
   "note": ""
  },
  {
   "property": "C05",
   "status": "partial",
   "theorems": [
    "Mabel.Writer.C05_failed_store_text",
    "Mabel.Writer.C05_failed_store_partial",
    "Mabel.Writer.C05_parquet_retry_fails",
    "Mabel.Writer.C05_dropped"
   ],
   "note": "full for text formats; for parquet an append that raised keeps its record (C05_parquet_retry_fails)"
  },
  {
   "property": "C06",
   "status": "partial",
   "theorems": [
    "Mabel.Writer.C06_marker_policy",
    "Mabel.Writer.C06_failure_is_sticky",
    "Mabel.Writer.C06_failure_forgotten_fails",
    "Mabel.Writer.C06_dropped"
   ],
   "note": "full with working storage; a failure signalled to a finalize whose store raised is forgotten"
  },
  {
   "property": "C07",
   "status": "proved",
   "theorems": [
    "Mabel.Writer.C07_crash_consistency"
   ],
   "note": ""
  },
  {
   "property": "C08",
   "status": "proved",
   "theorems": [
    "Mabel.Stream.C08_exactly_once",
    "Mabel.Stream.C08_any_schedule",
    "Mabel.Stream.C08_finalize_empties",
    "Mabel.Stream.C08_stored_is_prefix"
   ],
   "note": "Any number of threads, any interleaving permitted by the module lock, any clock; storage that works. The order is the order in which the calls obtained the lock."
  },
  {
   "property": "C09",
   "status": "proved",
   "theorems": [
    "Mabel.Stream.C09_one_writer_per_target",
    "Mabel.Stream.C09_get_writer"
   ],
   "note": "Holds at every instant, also inside critical sections and with failing storage."
  },
  {
   "property": "C10",
   "status": "partial",
   "theorems": [
    "Mabel.Stream.C10_least_recently_used",
    "Mabel.Stream.C10_over_capacity",
    "Mabel.Stream.C10_below_capacity",
    "Mabel.Stream.C10_none_within_capacity_fails",
    "Mabel.Stream.C10_within_capacity_partial",
    "Mabel.Stream.C10_last_use",
    "Mabel.Stream.C10_attendant_pass"
   ],
   "note": "The LRU half holds. The other half is false of the code: writer_pool.py:88 slices with a negative bound below capacity (C10_none_within_capacity_fails); C10_below_capacity gives the exact number evicted."
  },
  {
   "property": "C11",
   "status": "proved",
   "theorems": [
    "Mabel.Naming.C11_invalid_never_read",
    "Mabel.Targets.C11_invalid_to_backout",
    "Mabel.Targets.C11_valid_adds_no_folder",
    "Mabel.Targets.C11_valid_target",
    "Mabel.Listing.C11_reader_never_lists_backout",
    "Mabel.Targets.C11_valid_never_in_backout_fails"
   ],
   "note": "Without placeholders a valid record goes to the templated path itself; with placeholders it gains no folder, but a valid record whose field value is the word BACKOUT does land in a BACKOUT folder (proved as a failure)."
  },
  {
   "property": "C12",
   "status": "proved",
   "theorems": [
    "Mabel.Targets.C12_values_add_only_safe",
    "Mabel.Targets.C12_folder_depth"
   ],
   "note": ""
  },
  {
   "property": "C13",
   "status": "partial",
   "theorems": [
    "Mabel.Database.C13_exactly_once",
    "Mabel.Database.C13_finalized",
    "Mabel.Database.C13_batch_size_partial",
    "Mabel.Database.C13_full_batches",
    "Mabel.Database.C13_append_reports_pending",
    "Mabel.Database.C13_batch_size_fails",
    "Mabel.Database.C13_retry_fails"
   ],
   "note": "Nothing is lost, repeated or reordered whatever fails; batches hold at most 100 records while no insert fails, but one record more for every append after a failed insert, and retrying a failed append repeats the record (both proved as failures)."
  },
  {
   "property": "C14",
   "status": "partial",
   "theorems": [
    "Mabel.Database.C14_leave_scope",
    "Mabel.Database.C14_again",
    "Mabel.Database.C14_finalizer_at_most_once",
    "Mabel.Database.C14_late_record_fails",
    "Mabel.Database.C14_scope_failure_fails"
   ],
   "note": "Holds when the end of scope meets no failing insert and nothing is appended after finalize; otherwise the records never reach the finalizer or are lost (proved as failures)."
  },
  {
   "property": "C15",
   "status": "proved",
   "theorems": [
    "Mabel.Cursor.C15_resume_exact",
    "Mabel.Cursor.C15_collision_fails",
    "Mabel.Cursor.C15_listed_twice_fails"
   ],
   "note": "For distinct, non-empty blob names whose hashes differ (stated as hypotheses; the hash is a 64-bit digest). Any number of sittings of any lengths. The _fails theorems show the hypotheses are needed: a hash collision or a blob listed twice makes the reader repeat records."
  },
  {
   "property": "C16",
   "status": "proved",
   "theorems": [
    "Mabel.Cursor.C16_round_trip"
   ],
   "note": "Any number of blobs; hashes of the names and of the empty name assumed different."
  },
  {
   "property": "C17",
   "status": "partial",
   "theorems": [
    "Mabel.Cursor.C17_missing_refused",
    "Mabel.Cursor.C17_bad_map_refused",
    "Mabel.Cursor.C17_short_map_refused_partial",
    "Mabel.Cursor.C17_larger_set_refused_partial",
    "Mabel.Cursor.C17_padding_fails"
   ],
   "note": "Missing parts and maps that are not hexadecimal are refused; a map with fewer bits than blobs is refused. False in general for larger sets: the map is padded to whole bytes, C17_padding_fails shows a cursor misread after one blob is added."
  },
  {
   "property": "C18",
   "status": "partial",
   "theorems": [
    "Mabel.Listing.C18_sound",
    "Mabel.Listing.C18_no_duplicates_partial",
    "Mabel.Listing.C20_each_once_partial",
    "Mabel.Listing.C20_bleed_fails",
    "Mabel.Listing.C11_reader_never_lists_backout"
   ],
   "note": "Soundness and order hold for every storage. No duplicates: without by_ partitionings, or with segment names none of which begins another; fails otherwise (hour=1 / hour=10)."
  },
  {
   "property": "C19",
   "status": "proved",
   "theorems": [
    "Mabel.Listing.C19_newest_frame",
    "Mabel.Listing.C19_no_valid_frame",
    "Mabel.Listing.C20_frames_per_segment_partial",
    "Mabel.Listing.C19_ambiguous_names_fails"
   ],
   "note": "Every combination of complete, ignored and incomplete frames, with and without segments, for frame names none of which begins another (true of the names the writer makes). Ambiguous user-given names do fail: C19_ambiguous_names_fails."
  },
  {
   "property": "C20",
   "status": "partial",
   "theorems": [
    "Mabel.Listing.C20_each_once_partial",
    "Mabel.Listing.C20_frames_per_segment_partial",
    "Mabel.Listing.C20_bleed_fails",
    "Mabel.Listing.C20_bleed_hides_fails"
   ],
   "note": "Holds when no segment name begins another; fails for hour=1 and hour=10."
  },
  {
   "property": "C21",
   "status": "proved",
   "theorems": [
    "Mabel.Dates.C21_range_complete",
    "Mabel.Dates.C21_range_any_argument",
    "Mabel.Dates.C21_date_range_whole_day",
    "Mabel.Dates.C21_reader_last_day_fails",
    "Mabel.Dates.C21_reversed_refused",
    "Mabel.Dates.C21_text_end_whole_day"
   ],
   "note": "A reader visits exactly the whole hours of the closed range, once, ascending, for bounds in either order and given in any way. Side finding: a reader whose end is a plain date stops at that day 00:00, although date_range itself covers the day."
  },
  {
   "property": "C22",
   "status": "partial",
   "theorems": [
    "Mabel.Naming.C22_completed_is_read",
    "Mabel.Naming.C22_incomplete_not_read",
    "Mabel.Naming.C22_blobs_readable",
    "Mabel.Naming.holds_exists",
    "Mabel.Naming.C22_same_second_fails"
   ],
   "note": "Exact for every history, for relative datasets on disk whose folder names do not themselves look like frames, partitionings, markers or BACKOUT. Two runs that start within the same second share a frame, so an unfinished one is read with a finished one (proved as a failure)."
  },
  {
   "property": "C23",
   "status": "partial",
   "theorems": [
    "Mabel.Listing.C23_finds_most_recent",
    "Mabel.Listing.C23_within_limit",
    "Mabel.Listing.C23_nothing_found",
    "Mabel.Listing.C23_bounded",
    "Mabel.Reader.C23_reader_never_before_limit",
    "Mabel.Reader.C23_two_dates_refused",
    "Mabel.Listing.C23_unreadable_day_fails",
    "Mabel.Listing.C23_readable_iff"
   ],
   "note": "Everything holds except that a day holding only blobs of unknown kinds ends the search (proved as a failure)."
  },
  {
   "property": "C24",
   "status": "proved",
   "theorems": [
    "Mabel.Blobs.C24_failure_part_way",
    "Mabel.Blobs.C24_no_failure",
    "Mabel.Blobs.C24_others_unaffected",
    "Mabel.Blobs.C24_bad_line"
   ],
   "note": "the libraries that decode are parameters; a compressed blob that cannot be decompressed fails before its first record"
  },
  {
   "property": "C25",
   "status": "partial",
   "theorems": [
    "Mabel.Blobs.C25_blob_round_trip",
    "Mabel.Blobs.C25_round_trip",
    "Mabel.Blobs.C25_text_format_fails"
   ],
   "note": "jsonl, flat, zstd and parquet round-trip; the `text` format does not: a blob is read back as one piece"
  },
  {
   "property": "C26",
   "status": "partial",
   "theorems": [
    "Mabel.Parallel.C26_each_blob_once",
    "Mabel.Parallel.C26_every_run_ends",
    "Mabel.Parallel.C26_never_stuck",
    "Mabel.Parallel.C26_complete_run",
    "Mabel.Parallel.C26_queue_round_trip",
    "Mabel.Parallel.C26_queue_unchanged_partial",
    "Mabel.Parallel.C26_late_worker_fails",
    "Mabel.Parallel.C26_single_blob_fails",
    "Mabel.Parallel.C26_crash_fails",
    "Mabel.Parallel.C26_none_becomes_text_fails"
   ],
   "note": "Exactly-once delivery proved for every schedule without a crashed worker that ends normally; every run is finite; with at least as many blobs as workers and no worker giving up, every maximal run ends normally. The code can hang (late worker; single blob), loses a blob silently when a worker crashes, and turns None into text: proved as _fails."
  },
  {
   "property": "C27",
   "status": "proved",
   "theorems": [
    "Mabel.Reader.C27_access",
    "Mabel.Reader.C27_allowed_iff"
   ],
   "note": ""
  },
  {
   "property": "C28",
   "status": "partial",
   "theorems": [
    "Mabel.Validator.C28_accepted_iff",
    "Mabel.Validator.C28_too_many",
    "Mabel.Validator.C28_brought_incompatibility_fails",
    "Mabel.Validator.C28_reader"
   ],
   "note": "Exact characterisation of accepted calls. Incompatibilities declared by the rules an argument brings (an inner reader's RULES) are not enforced (proved as a failure)."
  },
  {
   "property": "C29",
   "status": "partial",
   "theorems": [
    "Mabel.Props.C29_take_first_partial",
    "Mabel.Props.C29_take_zero_fails",
    "Mabel.Props.C29_take_negative"
   ],
   "note": "True for n >= 1. The code returns every record for n = 0 (and negative n), proved as C29_take_zero_fails."
  },
  {
   "property": "C30",
   "status": "proved",
   "theorems": [
    "Mabel.Props.C30_filter_exact",
    "Mabel.Props.C30_filter_twice",
    "Mabel.Props.C30_filter_append"
   ],
   "note": "Callable filters; expression and DNF filters are C42-C44."
  },
  {
   "property": "C31",
   "status": "partial",
   "theorems": [
    "Mabel.Props.C31_distinct_partial",
    "Mabel.Props.C31_distinct_idempotent",
    "Mabel.Props.C31_equal_records_merge",
    "Mabel.Props.C31_distinct_of_separated",
    "Mabel.Props.C31_columns_collide_fails",
    "Mabel.Props.C31_missing_collides_fails",
    "Mabel.Props.C31_names_ignored_fails",
    "Mabel.Props.C31_distinct_records",
    "Mabel.Props.C31_distinct_column"
   ],
   "note": "Exact up to the key the code compares; full when the hash separates the records. Different records are merged for every hash function, proved as the _fails theorems."
  },
  {
   "property": "C32",
   "status": "proved",
   "theorems": [
    "Mabel.Props.C32_sort_and_take",
    "Mabel.Props.C32_storage_irrelevant",
    "Mabel.SortTake.C32_rows",
    "Mabel.SortTake.C32_mixed_refused",
    "Mabel.SortTake.C32_mixed_fails"
   ],
   "note": "Non-negative n and values comparable by a total preorder. The order of numbers, texts and datetimes is that of the small specification Spec/Order. For values that cannot be compared the code refuses a set in memory but may answer one that is not (witness C32_mixed_fails)."
  },
  {
   "property": "C33",
   "status": "partial",
   "theorems": [
    "Mabel.Props.C33_storage_partial",
    "Mabel.Props.C33_batches",
    "Mabel.Props.C33_empty_records_fails",
    "Mabel.Props.C33_empty_set_fails",
    "Mabel.Props.C36_count"
   ],
   "note": "True for non-empty sets of non-empty records. Empty records vanish from compressed memory and an empty set cannot be read from disk, proved as _fails."
  },
  {
   "property": "C34",
   "status": "partial",
   "theorems": [
    "Mabel.Props.C34_get_items_list_partial",
    "Mabel.Props.C34_get_items_compressed_partial",
    "Mabel.Props.C34_get_items_disk_partial",
    "Mabel.Props.C34_get_items_memory_fails",
    "Mabel.Props.C34_get_items_order_fails",
    "Mabel.Props.C34_get_items_negative_fails",
    "Mabel.Props.C34_get_items_unstored_fails"
   ],
   "note": "Exact for lists; ascending order in compressed memory; ascending without repeats on disk; nothing at all for sets in memory. A set over an iterator (not stored) gives nothing, or raises if some record has not exactly two fields."
  },
  {
   "property": "C35",
   "status": "proved",
   "theorems": [
    "Mabel.Props.C35_record_order",
    "Mabel.Props.C35_key_order",
    "Mabel.Props.C35_duplicates_cancel"
   ],
   "note": "Every permutation of records and of keys, for every serialiser and hash."
  },
  {
   "property": "C36",
   "status": "proved",
   "theorems": [
    "Mabel.Props.C36_keys",
    "Mabel.Props.C36_collect_list",
    "Mabel.Props.C36_sum",
    "Mabel.Props.C36_max_min",
    "Mabel.Props.C36_min_max",
    "Mabel.Props.C36_count",
    "Mabel.Props.C36_null_fails",
    "Mabel.Props.C36_max_empty",
    "Mabel.Summaries.C36_column",
    "Mabel.Summaries.C36_keys_of",
    "Mabel.Summaries.C36_sum_numbers",
    "Mabel.Summaries.C36_sum_refused",
    "Mabel.Summaries.C36_max_of",
    "Mabel.Summaries.C36_min_of",
    "Mabel.Summaries.C36_max_min_refused",
    "Mabel.Summaries.C36_min_max_of"
   ],
   "note": "The theorems of Mabel.Props are about whole number columns. The theorems of Mabel.Summaries are about numbers of any kind, texts and datetimes (floats as fractions), and say when sum, min and max raise."
  },
  {
   "property": "C37",
   "status": "proved",
   "theorems": [
    "Mabel.Props.C37_select",
    "Mabel.Props.C37_select_star"
   ],
   "note": "Every column list without '*', and ['*']."
  },
  {
   "property": "C38",
   "status": "proved",
   "theorems": [
    "Mabel.GroupBy.C38_counts",
    "Mabel.GroupBy.C38_too_many_refused",
    "Mabel.GroupBy.C38_too_many_groups"
   ],
   "note": "For groupings whose hashed texts tell the groups apart (Faithful; when that holds is C41) and fewer than 4999999 groups; with more the answer is an exception."
  },
  {
   "property": "C39",
   "status": "partial",
   "theorems": [
    "Mabel.GroupBy.C39_aggregations_partial",
    "Mabel.GroupBy.C39_sum_partial",
    "Mabel.GroupBy.C39_average_partial",
    "Mabel.GroupBy.C39_sum_with_average_fails",
    "Mabel.GroupBy.C39_count_with_average_fails",
    "Mabel.GroupBy.C39_average_of_nulls_fails",
    "Mabel.GroupBy.C39_great_sum_fails",
    "Mabel.GroupBy.C39_rounded"
   ],
   "note": "Any list of aggregations in which, averages counting as a sum and a count, none repeats. False with SUM or COUNT next to AVG of the same column (doubled), and AVG of a column that is null in a whole group raises KeyError. Sums are added with 28 digits: the theorems ask that the magnitudes add up to less than 10^28, and beyond it fails.  Sums of two great numbers are answered with 28 digits, rounded half to even (C39_rounded). Truth values are summed and averaged as one and nought, also among numbers."
  },
  {
   "property": "C40",
   "status": "partial",
   "theorems": [
    "Mabel.GroupBy.C40_max_partial",
    "Mabel.GroupBy.C40_min_partial",
    "Mabel.GroupBy.C39_aggregations_partial",
    "Mabel.GroupBy.C40_max_zero_fails",
    "Mabel.GroupBy.C40_min_zero_fails"
   ],
   "note": "Whole numbers unless zero is the answer and other values are present; texts (for MIN unless the empty text is mixed with others). False with zero: max(0,-1) is answered as -1. Truth values count as one and nought (so False is lost as zero is)."
  },
  {
   "property": "C41",
   "status": "partial",
   "theorems": [
    "Mabel.GroupBy.C41_same_group_partial",
    "Mabel.GroupBy.C41_groups",
    "Mabel.GroupBy.C41_run_together_fails",
    "Mabel.GroupBy.C41_kinds_fails"
   ],
   "note": "Columns of one kind and, with several columns, fixed width in all but the last, and no hash collision. False in general: ('ab','c') and ('a','bc') are one group, null and 'None' are one group."
  },
  {
   "property": "C42",
   "status": "proved",
   "theorems": [
    "Mabel.Filters.C42_conjunction",
    "Mabel.Filters.C42_conjunction_total",
    "Mabel.Filters.C42_disjunction",
    "Mabel.Filters.C42_null",
    "Mabel.Filters.C42_mixed",
    "Mabel.Filters.C42_narrows",
    "Mabel.Filters.C42_widens",
    "Mabel.Filters.C42_filter",
    "Mabel.Filters.C42_no_filter",
    "Mabel.Filters.C42_integers",
    "Mabel.Filters.C42_texts",
    "Mabel.Filters.C42_members",
    "Mabel.Filters.C42_list_contains",
    "Mabel.Filters.C42_like",
    "Mabel.Filters.C42_unknown_operator",
    "Mabel.Filters.C42_numbers",
    "Mabel.Filters.C42_values",
    "Mabel.Filters.C42_other_type",
    "Mabel.Filters.C42_lists",
    "Mabel.Filters.C42_lists_undecided",
    "Mabel.Filters.C42_malformed",
    "Mabel.Filters.C42_like_values"
   ],
   "note": "For every filter, record and operator; floats are rational numbers. C42_values covers fractions, booleans and datetimes too, and C42_other_type values of different types."
  },
  {
   "property": "C43",
   "status": "partial",
   "theorems": [
    "Mabel.Expression.C43_parse_partial",
    "Mabel.Expression.C43_unambiguous",
    "Mabel.Expression.C43_every_expression",
    "Mabel.Expression.C43_ends",
    "Mabel.Expression.C43_null_partial",
    "Mabel.Expression.C43_null_fails",
    "Mabel.Expression.C43_null_in_parentheses_fails"
   ],
   "note": "Every way the grammar allows to write an expression, as a list of tokens, is parsed back to that expression, at any depth; a list of tokens is the text of one expression only; parsing ends for every list of tokens. False for comparisons with NULL: whatever follows one is dropped, and in parentheses it is refused."
  },
  {
   "property": "C44",
   "status": "partial",
   "theorems": [
    "Mabel.Expression.C44_boolean",
    "Mabel.Expression.C44_text_form",
    "Mabel.Expression.C44_raises",
    "Mabel.Expression.C44_never_raises_partial",
    "Mabel.Expression.C44_like_number_fails",
    "Mabel.Expression.C44_like_missing_fails",
    "Mabel.Expression.C44_bad_regex_fails"
   ],
   "note": "The value of an expression is the boolean combination of the values of its comparisons, also from its tokens; it raises exactly when a comparison does. False that it never raises: LIKE without a text on the right and MATCHES with a text that is not a regular expression."
  },
  {
   "property": "C45",
   "status": "partial",
   "theorems": [
    "Mabel.Expression.C45_same_partial",
    "Mabel.Expression.C45_not_fails",
    "Mabel.Expression.C45_three_fails",
    "Mabel.Expression.C45_and_of_ors_fails",
    "Mabel.Expression.C45_text_fails",
    "Mabel.Expression.C45_missing_fails"
   ],
   "note": "Holds for alternatives of numeric comparisons and pairs of them. False for NOT (raises), three parts of an AND (refused), an AND of alternatives (accepts too much), texts (compared with quotes) and missing fields."
  },
  {
   "property": "C46",
   "status": "partial",
   "theorems": [
    "Mabel.Like.C46_like_partial",
    "Mabel.Like.C46_exactly",
    "Mabel.Like.C46_plain",
    "Mabel.Like.C46_not_like",
    "Mabel.Like.C46_percent_line_feed_fails",
    "Mabel.Like.C46_final_line_feed_fails",
    "Mabel.Like.C46_null_fails"
   ],
   "note": "SQL LIKE for texts without line feeds, with str.lower a parameter. With line feeds wildcards do not match them and one at the end is ignored; a null is compared as the text None."
  },
  {
   "property": "C47",
   "status": "proved",
   "theorems": [
    "Mabel.Sql.C47_accepted_iff",
    "Mabel.Sql.C47_parsed",
    "Mabel.Sql.C47_components",
    "Mabel.Sql.C47_empty"
   ],
   "note": "For every string and every statement. A missing name is refused with IndexError instead of InvalidSqlError."
  },
  {
   "property": "C48",
   "status": "partial",
   "theorems": [
    "Mabel.Sql.C48_parse_partial",
    "Mabel.Sql.C48_incomplete",
    "Mabel.Sql.C48_complete",
    "Mabel.Sql.C48_comments",
    "Mabel.Sql.C48_ends",
    "Mabel.Sql.C48_order_fails",
    "Mabel.Sql.C48_leading_fails",
    "Mabel.Sql.C48_quoted_fails",
    "Mabel.Sql.C48_crlf_fails"
   ],
   "note": "Proved for statements whose clauses have no SQL keyword as a word in them, in any order, with comments, any white space and case, and subqueries. ORDER BY without ASC or DESC before another clause never ends, nor does a text that begins with anything but a clause; a keyword in quotes begins a clause; comments on lines that end with CR LF stay."
  },
  {
   "property": "C49",
   "status": "partial",
   "theorems": [
    "Mabel.SqlReader.C49_select_partial",
    "Mabel.SqlReader.C49_star_partial",
    "Mabel.SqlReader.C49_group_partial",
    "Mabel.SqlReader.C49_total_partial",
    "Mabel.SqlReader.C49_subquery_partial",
    "Mabel.SqlReader.C49_subquery_star_partial",
    "Mabel.SqlReader.C49_limit",
    "Mabel.SqlReader.C49_distinct",
    "Mabel.SqlReader.C49_sorted",
    "Mabel.SqlReader.C49_subquery_where_fails",
    "Mabel.SqlReader.C49_subquery_call_fails",
    "Mabel.SqlReader.C49_limit_zero_fails",
    "Mabel.SqlReader.C49_order_star_fails",
    "Mabel.SqlReader.C49_order_cap_fails",
    "Mabel.SqlReader.C49_order_unselected_fails",
    "Mabel.SqlReader.C49_raise_fails",
    "Mabel.SqlReader.C49_shadow_fails",
    "Mabel.SqlReader.C49_swap_fails",
    "Mabel.SqlReader.C49_count_nothing_fails",
    "Mabel.SqlReader.C49_bare_not_fails",
    "Mabel.SqlReader.C49_star_empty_fails",
    "Mabel.SqlReader.C49_order_mixed"
   ],
   "note": "From the text of the statement: columns, computed columns, WHERE, GROUP BY, HAVING, DISTINCT, ORDER BY and LIMIT over a dataset, and over another statement (without WHERE and functions), for select lists and records that are answered rightly; the _fails theorems are the others. For every statement: LIMIT, no duplicates with DISTINCT, sortedness. SELECT * without WHERE drops records without fields (C49_star_empty_fails). ORDER BY a column whose values cannot be compared raises TypeError. For GROUP BY and aggregations the fields that are grouped or aggregated hold absent values, truth values, whole numbers and texts; other fields can hold anything."
  },
  {
   "property": "C50",
   "status": "proved",
   "theorems": [
    "Mabel.Dates.C50_date",
    "Mabel.Dates.C50_minute",
    "Mabel.Dates.C50_second",
    "Mabel.Dates.C50_result_valid",
    "Mabel.Dates.C50_negative_offset_ignored",
    "Mabel.Dates.C50_read_from",
    "Mabel.Dates.C50_not_iso_fails"
   ],
   "note": "All three layouts, every valid date, with Z, offset (ignored) and fraction; any value returned is a valid date. A value that is returned is read from the numbers in their places (C50_read_from); these are read as Python reads integers, so some texts that are not ISO dates are accepted, against the documentation (C50_not_iso_fails)."
  },
  {
   "property": "C51",
   "status": "proved",
   "theorems": [
    "Mabel.Dates.C51_parse",
    "Mabel.Dates.C51_malformed_not_refused"
   ],
   "note": "Every combination of optional integer parts in d,h,m,s order. Malformed text is not refused: what cannot be read is dropped."
  },
  {
   "property": "C52",
   "status": "partial",
   "theorems": [
    "Mabel.Paths.C52_parts_file",
    "Mabel.Paths.C52_rejoin_file",
    "Mabel.Paths.C52_parts_folder",
    "Mabel.Paths.C52_rejoin_folder",
    "Mabel.Paths.C52_file_in_bucket_fails",
    "Mabel.Paths.C52_bucket_alone",
    "Mabel.Paths.C52_template",
    "Mabel.Paths.C52_dates_distinct"
   ],
   "note": "Canonical relative paths with at least one folder, and all templates and dates. Re-joining fails for a file directly in the bucket (folder part \"./\"), shown by C52_file_in_bucket_fails."
  },
  {
   "property": "C53",
   "status": "proved",
   "theorems": [
    "Mabel.Targets.C53_keeps_exactly_safe",
    "Mabel.Targets.C53_default_alphabet",
    "Mabel.Targets.C53_idempotent"
   ],
   "note": ""
  },
  {
   "property": "C54",
   "status": "proved",
   "theorems": [
    "Mabel.Validator.C54_edit_distance",
    "Mabel.Validator.C54_suggestions"
   ],
   "note": "For every case-folding function."
  },
  {
   "property": "C55",
   "status": "proved",
   "theorems": [
    "Mabel.Entropy.C55_int",
    "Mabel.Entropy.C55_int_all",
    "Mabel.Entropy.C55_range",
    "Mabel.Entropy.C55_range_all",
    "Mabel.Entropy.C55_choice",
    "Mabel.Entropy.C55_choice_all",
    "Mabel.Entropy.C55_choice_none",
    "Mabel.Entropy.C55_string",
    "Mabel.Entropy.C55_string_all"
   ],
   "note": "Whatever bytes the entropy source returns, the results are within bounds; every value in the bounds is possible. An empty list of options raises ZeroDivisionError. random_value draws from the same source."
  },
  {
   "property": "C56",
   "status": "partial",
   "theorems": [
    "Mabel.Records.C56_flatten_partial",
    "Mabel.Records.C56_lists_fails",
    "Mabel.Records.C56_list_of_dicts_fails",
    "Mabel.Records.C56_empty",
    "Mabel.Records.C56_separator_fails",
    "Mabel.Records.C56_list_partial"
   ],
   "note": "Proved for nested records of any depth without lists, and for a list of plain values. Otherwise with lists the code loses leaves: list members are named by position only."
  },
  {
   "property": "C57",
   "status": "partial",
   "theorems": [
    "Mabel.Display.C57_escaped",
    "Mabel.Display.C57_decoded",
    "Mabel.Display.C57_injective",
    "Mabel.Display.C57_table_of_texts",
    "Mabel.Display.C57_markup",
    "Mabel.Display.C57_objects_fails",
    "Mabel.Display.C57_list_of_numbers_fails",
    "Mabel.Display.C57_table"
   ],
   "note": "Texts, dictionaries and lists of them can never add markup, and a browser shows exactly the text. Other objects (bytes, say) are put on the page as they are, and a list with a number in it makes the table fail. C57_table says what a browser shows of lists, dictionaries and other objects too."
  },
  {
   "property": "C58",
   "status": "partial",
   "theorems": [
    "Mabel.Histogram.C58_bins",
    "Mabel.Histogram.C58_last_bin_fails",
    "Mabel.Histogram.C58_one_bin_fails",
    "Mabel.Histogram.C58_no_values",
    "Mabel.Histogram.C58_drawn",
    "Mabel.Histogram.C58_drawn_empty_fails"
   ],
   "note": "With two bins or more each bin counts exactly the values in its interval, intervals ascend and the counts sum to the number of values. The last bin is always empty, one bin raises ZeroDivisionError, and a small non-empty bin is drawn as empty. Missing: float rounding, as values are rationals in the model."
  },
  {
   "property": "C59",
   "status": "partial",
   "theorems": [
    "Mabel.Collected.C59_collect",
    "Mabel.Collected.C59_get",
    "Mabel.Collected.C59_values",
    "Mabel.Collected.C59_own_column",
    "Mabel.Collected.C59_count",
    "Mabel.Collected.C59_count_all",
    "Mabel.Collected.C59_count_none_fails",
    "Mabel.Collected.C59_aggregate",
    "Mabel.Collected.C59_items",
    "Mabel.Collected.C59_several_fails",
    "Mabel.Collected.C59_dedupe",
    "Mabel.Props.C59_after_reading_fails",
    "Mabel.Collected.C59_groups",
    "Mabel.Collected.C59_asked",
    "Mabel.Collected.C59_deduped",
    "Mabel.Collected.C59_listed",
    "Mabel.Collected.C59_aggregated",
    "Mabel.Collected.C59_applied"
   ],
   "note": "Grouping, lookups, counts, aggregates, items and dedupe are proved for every set and column. Fails: looking up several collections raises KeyError, and count(None) cannot count the group of missing values. Values without floats. A stored set that has been read before, or is collected a second time, has nothing to collect (C59_after_reading_fails)."
  },
  {
   "property": "C60",
   "status": "partial",
   "theorems": [
    "Mabel.Functions.C60_left",
    "Mabel.Functions.C60_right_partial",
    "Mabel.Functions.C60_right_zero_fails",
    "Mabel.Functions.C60_mid",
    "Mabel.Functions.C60_reassemble",
    "Mabel.Functions.C60_concat",
    "Mabel.Functions.C60_parts",
    "Mabel.Functions.C60_parts_of_date_text",
    "Mabel.Functions.C60_parts_none",
    "Mabel.Functions.C60_date_of_date_fails",
    "Mabel.Functions.C60_adddays",
    "Mabel.Functions.C60_daysdiff",
    "Mabel.Functions.C60_daysdiff_back",
    "Mabel.Functions.C60_daysdiff_mixed_fails",
    "Mabel.Functions.C60_integer_partial",
    "Mabel.Functions.C60_integer_fails",
    "Mabel.Functions.C60_between",
    "Mabel.Functions.C60_random",
    "Mabel.Functions.C60_random_all",
    "Mabel.Functions.C60_boolean",
    "Mabel.Functions.C60_concat_list",
    "Mabel.Functions.C60_daysdiff_dates",
    "Mabel.Functions.C60_adddays_date",
    "Mabel.Functions.C60_integer_nearest"
   ],
   "note": "LEFT, RIGHT, MID, CONCAT, the date parts, ADDDAYS, DAYSDIFF, INTEGER/TRUNC, BETWEEN, RANDOM and BOOLEAN. Fails: RIGHT(x, 0) is the whole text, time parts of a date raise AttributeError, DAYSDIFF of a date and a datetime raises TypeError, INTEGER of odd numbers beyond 53 bits changes them. WEEK is C110, MD5 is C111; HASH is a library call and is not modelled."
  },
  {
   "property": "C61",
   "status": "partial",
   "theorems": [
    "Mabel.Paging.C61_pages_partial",
    "Mabel.Paging.C61_last_record_fails",
    "Mabel.Paging.C61_empty_fails"
   ],
   "note": "Every record but the last is kept once, in order, in full pages. The code always loses the last record and fails on an empty stream."
  },
  {
   "property": "C62",
   "status": "partial",
   "theorems": [
    "Mabel.Evaluator.C62_reads",
    "Mabel.Evaluator.C62_columns_partial",
    "Mabel.Evaluator.C62_one_each_partial",
    "Mabel.Evaluator.C62_fields_partial",
    "Mabel.Evaluator.C62_no_memory",
    "Mabel.Evaluator.C62_unbalanced",
    "Mabel.Evaluator.C62_alias_fails",
    "Mabel.Evaluator.C62_star_fails",
    "Mabel.Evaluator.C62_aggregate_fails",
    "Mabel.Evaluator.C62_text_fails",
    "Mabel.Evaluator.C62_constant_fails",
    "Mabel.Evaluator.C62_no_parentheses"
   ],
   "note": "Proved for items that are fields, literals, * and nested calls of functions, with AS only on calls, in any layout. A name given with AS to anything but a call is ignored, * adds a field named *, aggregates give None, and texts with commas, parentheses or AS in them are taken apart. A constant (TRUE, FALSE, NULL, NONE) is computed but not among the reported fields."
  },
  {
   "property": "C63",
   "status": "partial",
   "theorems": [
    "Mabel.Xml.C63_kept",
    "Mabel.Xml.C63_everything_partial",
    "Mabel.Xml.C63_found",
    "Mabel.Xml.C63_places",
    "Mabel.Xml.C63_leaf",
    "Mabel.Xml.C63_tail_fails",
    "Mabel.Xml.C63_order_fails",
    "Mabel.Xml.C63_namespace_fails"
   ],
   "note": "Everything but the text after an element is kept, each fact as many times, when names stay different without namespaces. Lost in general: text after an element, the order of elements with different tags, and the first of two elements whose tags differ only in the namespace."
  },
  {
   "property": "C64",
   "status": "partial",
   "theorems": [
    "Mabel.Tokenizer.C64_split",
    "Mabel.Tokenizer.C64_no_quotes",
    "Mabel.Tokenizer.C64_never_raises",
    "Mabel.Tokenizer.C64_rows",
    "Mabel.Tokenizer.C64_quoted",
    "Mabel.Tokenizer.C64_tokens_partial",
    "Mabel.Tokenizer.C64_expression_partial",
    "Mabel.Tokenizer.C64_unclosed_fails",
    "Mabel.Tokenizer.C64_spaces_fails",
    "Mabel.Tokenizer.C64_between_fails",
    "Mabel.Tokenizer.C64_nested_fails",
    "Mabel.Tokenizer.C64_dotted_fails"
   ],
   "note": "The pieces of a statement concatenate to it; without quotes only white space is lost; a laid-out row of lexemes gives exactly its tokens, and its expression. False in general: runs of white space inside quotes collapse, what follows an unclosed quote is lost, quotes of one kind inside the other and dotted numbers next to words break tokens."
  },
  {
   "property": "C65",
   "status": "partial",
   "theorems": [
    "Mabel.Display.C65_ascii_partial",
    "Mabel.Display.C65_lines_align",
    "Mabel.Display.C65_order_fails",
    "Mabel.Display.C65_missing_fails",
    "Mabel.Display.C65_empty_name_fails",
    "Mabel.Display.C65_html_zero_fails",
    "Mabel.Display.C57_table_of_texts",
    "Mabel.Display.C65_cells_partial",
    "Mabel.Display.C57_table"
   ],
   "note": "HTML tables show every column for each of the first limit records, but all of them for limit 0. Text tables do so for records with the same fields in the same order only."
  },
  {
   "property": "C66",
   "status": "partial",
   "theorems": [
    "Mabel.Stream.C66_no_duplicates",
    "Mabel.Stream.C66_loss_is_reported_fails"
   ],
   "note": "The first half holds; the second is false: finalize drops the exceptions of its commits."
  },
  {
   "property": "C67",
   "status": "partial",
   "theorems": [
    "Mabel.Props.C67_scan_complete_partial",
    "Mabel.Props.C67_fresh_loop",
    "Mabel.Props.C67_second_loop_fails",
    "Mabel.Props.C67_loop_after_first_fails",
    "Mabel.DictSet.C67_list_loop_fails"
   ],
   "note": "Methods always see every record; a for loop sees nothing after any earlier complete read, misses the first record after first(), and raises for a set made from a list without storing it."
  },
  {
   "property": "C68",
   "status": "proved",
   "theorems": [
    "Mabel.Targets.C68_finds_places",
    "Mabel.Targets.C68_targets",
    "Mabel.Targets.C68_number_of_writes",
    "Mabel.Targets.C68_same_target_twice_fails"
   ],
   "note": "Templates whose fixed text has no braces and whose field names have no braces. Two values that clean to the same text make the same target twice: C68_same_target_twice_fails shows the record is then stored twice in one folder, as the combinations are counted, not the folders."
  },
  {
   "property": "C69",
   "status": "partial",
   "theorems": [
    "Mabel.Listing.C69_filter_selects_segment",
    "Mabel.Listing.C69_unframed",
    "Mabel.Listing.C69_operator_refused",
    "Mabel.Listing.C69_underscore_ignored_fails",
    "Mabel.Listing.C69_value_stripped_fails",
    "Mabel.Listing.C69_prefix_hides_fails"
   ],
   "note": "Exact for fields and values of letters, digits and white space; other characters are stripped, and then the filter is dropped or finds nothing (proved as failures)."
  },
  {
   "property": "C70",
   "status": "partial",
   "theorems": [
    "Mabel.Blobs.C70_unfiltered",
    "Mabel.Blobs.C70_empty_record_fails"
   ],
   "note": "exactly the empty records are dropped"
  },
  {
   "property": "C71",
   "status": "partial",
   "theorems": [
    "Mabel.Blobs.C71_select_then_filter",
    "Mabel.Blobs.C71_filter_then_select_partial",
    "Mabel.Blobs.C71_filter_on_unselected_fails"
   ],
   "note": "holds when the filter does not depend on what the select removes; fails in general, as the select is applied first"
  },
  {
   "property": "C72",
   "status": "proved",
   "theorems": [
    "Mabel.EndToEnd.C72_written_is_read"
   ],
   "note": "records not empty, formats other than text, names of blobs increasing; see the hypotheses"
  },
  {
   "property": "C73",
   "status": "partial",
   "theorems": [
    "Mabel.GroupBy.C73_second_question_fails",
    "Mabel.GroupBy.C73_same_list_fails"
   ],
   "note": "False: the second aggregation of a grouping answers that there are no groups. The caller's list of questions is changed too, so asking the same of the same records again answers more than was asked, wrongly."
  },
  {
   "property": "C74",
   "status": "partial",
   "theorems": [
    "Mabel.Expression.C74_accepted_partial",
    "Mabel.Expression.C74_no_operator",
    "Mabel.Expression.C74_trailing_fails",
    "Mabel.Expression.C74_call_dropped_fails",
    "Mabel.Expression.C74_not_operand_fails"
   ],
   "note": "What is accepted begins with an expression of the grammar; tokens without an operator are refused. False: tokens after an expression are ignored, a call before a parenthesis is dropped, NOT is taken as an operand."
  },
  {
   "property": "C75",
   "status": "partial",
   "theorems": [
    "Mabel.Expression.C75_again_partial",
    "Mabel.Expression.C75_any_number_partial",
    "Mabel.Expression.C75_empty_name_fails"
   ],
   "note": "Evaluation rewrites the names in backquotes; it gives the same answer after any number of records unless such a name is empty or has backquotes inside. False for the empty name: the second record raises."
  },
  {
   "property": "C76",
   "status": "partial",
   "theorems": [
    "Mabel.Expression.C76_integers",
    "Mabel.Expression.C76_texts_partial",
    "Mabel.Expression.C76_like_partial",
    "Mabel.Expression.C76_null",
    "Mabel.Expression.C76_in_texts_partial",
    "Mabel.Expression.C76_in_integers",
    "Mabel.Expression.C76_number_text_fails",
    "Mabel.Expression.C76_numbers",
    "Mabel.Expression.C76_boolean_text_fails"
   ],
   "note": "Integers, texts, LIKE, IS NULL and IN. False for a field whose text is that of a boolean, a number or a date: it does not equal that text."
  },
  {
   "property": "C77",
   "status": "partial",
   "theorems": [
    "Mabel.Blobs.C77_jsonl",
    "Mabel.Blobs.C77_zstd_partial",
    "Mabel.Blobs.C77_zstd_last_line_fails",
    "Mabel.Blobs.C77_lzma",
    "Mabel.Blobs.C77_zip",
    "Mabel.Blobs.C77_override",
    "Mabel.Blobs.C77_others",
    "Mabel.Blobs.C77_zip_damaged"
   ],
   "note": "JSON lines with any line ends, LZMA, ZIP with files of several formats, and a format given explicitly. False for ZSTD blobs whose last line has no line feed: the last record is dropped. C77_zip_damaged: a file inside a ZIP that its library cannot read ends the ZIP; the files before it are delivered as if the ZIP held only them."
  },
  {
   "property": "C78",
   "status": "proved",
   "theorems": [
    "Mabel.Records.C78_select",
    "Mabel.Records.C78_select_order",
    "Mabel.Records.C78_order",
    "Mabel.Records.C78_set"
   ],
   "note": "Setters are pure functions in the model."
  },
  {
   "property": "C79",
   "status": "partial",
   "theorems": [
    "Mabel.ObjectStore.C79_listing_partial",
    "Mabel.ObjectStore.C79_listing_once",
    "Mabel.ObjectStore.C79_minio_listing_partial",
    "Mabel.ObjectStore.C79_stored_is_listed_partial",
    "Mabel.ObjectStore.C79_minio_stored_is_listed_partial",
    "Mabel.ObjectStore.C79_listed_once_partial",
    "Mabel.ObjectStore.C79_fetched",
    "Mabel.ObjectStore.C79_empty_run_fails",
    "Mabel.ObjectStore.C79_minio_repeats_fails",
    "Mabel.ObjectStore.C79_dotted_folder_fails",
    "Mabel.ObjectStore.C79_whole_bucket_fails"
   ],
   "note": "Proved for datasets that are folders in a bucket whose last folder has no dot, on both services, for every history; on Google Cloud Storage a completed run must have a blob. Fails: an empty completed run on Google Cloud Storage is not seen; MinIO lists every blob once per date; a dotted last folder lists its neighbours; a whole bucket is looked for in 'partitions'."
  },
  {
   "property": "C80",
   "status": "proved",
   "theorems": [
    "Mabel.DictSet.C80_at_most_once",
    "Mabel.DictSet.C80_never_twice",
    "Mabel.DictSet.C80_nothing_lost",
    "Mabel.DictSet.C80_derived",
    "Mabel.DictSet.C80_take_then_rest",
    "Mabel.DictSet.C80_first_match",
    "Mabel.DictSet.C80_one_then_rest"
   ],
   "note": "For every history of derivations and reads in any interleaving. Predicates and column functions do not raise in the model."
  },
  {
   "property": "C81",
   "status": "partial",
   "theorems": [
    "Mabel.DictSet.C81_sample",
    "Mabel.DictSet.C81_sublist",
    "Mabel.DictSet.C81_derived",
    "Mabel.DictSet.C81_kept",
    "Mabel.DictSet.C81_average_partial",
    "Mabel.DictSet.C81_more_than_half_fails",
    "Mabel.DictSet.C81_over_one_fails",
    "Mabel.DictSet.C81_two_fifths_fails",
    "Mabel.DictSet.C81_smallest_fails",
    "Mabel.DictSet.C81_nought_fails",
    "Mabel.DictSet.C81_negative_fails"
   ],
   "note": "A sample is always records of the set in order; its average size is the fraction of the set for 1, 1/2, 1/4, ... 1/65536 only. Fails: above 1/2 everything is kept, 2/5 keeps a half, a millionth keeps one in 65536, above 1 divides by zero, and so does 0 even for an empty set; -1/2 is taken as 1/2. Division is exact in the model."
  },
  {
   "property": "C82",
   "status": "partial",
   "theorems": [
    "Mabel.DictSet.C82_types_partial",
    "Mabel.DictSet.C82_empty_fails",
    "Mabel.DictSet.C82_unstored_fails"
   ],
   "note": "Right for the columns of stored sets that have a value other than None; a column of None is 'mixed' instead of 'empty', and every column of a set that is not stored is 'mixed'."
  },
  {
   "property": "C83",
   "status": "partial",
   "theorems": [
    "Mabel.WriterInit.C83_refused",
    "Mabel.WriterInit.C83_where",
    "Mabel.WriterInit.C83_single_folder",
    "Mabel.WriterInit.C83_stored_is_read_partial",
    "Mabel.WriterInit.C83_readable",
    "Mabel.WriterInit.C83_batch",
    "Mabel.WriterInit.C83_split_job",
    "Mabel.WriterInit.C83_frames_hide_fails",
    "Mabel.WriterInit.C83_reserved_name_fails",
    "Mabel.WriterInit.C83_bad_date_fails",
    "Mabel.WriterInit.C83_dotted_name_fails",
    "Mabel.WriterInit.C83_batch_datefolders_fails",
    "Mabel.WriterInit.C83_batch_raw_path_fails"
   ],
   "note": "Proved for datasets and partitions that are at least two folders, the last without a dot, and whose names do not look like frames, segments or markers. Not so: the blobs of a writer are hidden once a batch writer has stored anything for the same dataset and date; names that are to be refused are accepted; a date that is not understood becomes today; a dotted name without partitions goes elsewhere; batch writers ignore {datefolders} and raw_path."
  },
  {
   "property": "C84",
   "status": "partial",
   "theorems": [
    "Mabel.Disk.C84_stored",
    "Mabel.Disk.C84_stopped_store",
    "Mabel.Disk.C84_crash_atomic",
    "Mabel.Disk.C84_run_completes",
    "Mabel.Disk.C84_store_atomic_fails",
    "Mabel.Disk.C84_partly_written_fails"
   ],
   "note": "Batch runs are crash atomic for processes that die (for a computer that loses power see C114), for a run later than all in the history, in a folder with room for it. False for writers without frames: blobs are written in place, so a reader lists and reads a blob that is partly written."
  },
  {
   "property": "C85",
   "status": "partial",
   "theorems": [
    "Mabel.Threads.C85_at_most_once",
    "Mabel.Threads.C85_everything",
    "Mabel.Threads.C85_can_finish",
    "Mabel.Threads.C85_work_bounded",
    "Mabel.Threads.C85_records_partial",
    "Mabel.Threads.C85_returns_fails",
    "Mabel.Threads.C85_everything_fails",
    "Mabel.Threads.C85_error_fails",
    "Mabel.Threads.C85_order_fails"
   ],
   "note": "Exactly once and no deadlock are proved when there are at least as many blobs as threads and no thread crashes or gives up. False otherwise: with fewer blobs than threads the reader may never return; when a thread has given up or crashed, pages are lost without an error; and the last record of every blob is lost (C61)."
  },
  {
   "property": "C86",
   "status": "partial",
   "theorems": [
    "Mabel.History.C86_last_finished_is_read",
    "Mabel.History.C86_read_while_written",
    "Mabel.History.C86_unfinished_is_not_read",
    "Mabel.History.C86_empty_run",
    "Mabel.History.C86_same_second_fails"
   ],
   "note": "Proved for histories of any length when no two runs start in the same second and the day's folder was empty at first; a run without valid records counts as come to its end if it is marked complete all the same (always_complete), and then there is no data. False without the first: a run in the same second as a finished one is read with it, even when it is stopped."
  },
  {
   "property": "C87",
   "status": "proved",
   "theorems": [
    "Mabel.History.C87_range_is_read",
    "Mabel.History.C87_nothing_finished",
    "Mabel.History.C87_empty_days",
    "Mabel.History.C87_usual_partitions"
   ],
   "note": "For histories of any length, on a disk where the folders of these days were empty at first; a run without valid records counts as come to its end if it is marked complete all the same (always_complete). C87_usual_partitions shows that the usual partitions meet the condition on the folders."
  },
  {
   "property": "C88",
   "status": "proved",
   "theorems": [
    "Mabel.SqlReader.C88_stored",
    "Mabel.SqlReader.C88_select",
    "Mabel.SqlReader.C88_star",
    "Mabel.SqlReader.C88_group",
    "Mabel.SqlReader.C88_total",
    "Mabel.SqlReader.C88_nothing_finished",
    "Mabel.SqlReader.C88_same_reader"
   ],
   "note": "C88_stored and C88_nothing_finished hold of every statement. C88_select, C88_star, C88_group and C88_total give the result from the text of the statement, for the statements for which C49 is proved. C88_same_reader shows that the two models of reading a blob agree. The libraries have to give back the records of these runs, and no others."
  },
  {
   "property": "C89",
   "status": "proved",
   "theorems": [
    "Mabel.StreamStorage.C89_streamed_is_read",
    "Mabel.StreamStorage.C89_finalized_stays",
    "Mabel.StreamStorage.C89_at_any_moment",
    "Mabel.StreamStorage.C89_hours_are_read",
    "Mabel.StreamStorage.C89_hours_stay",
    "Mabel.StreamStorage.C89_torn_blob",
    "Mabel.StreamStorage.C89_nothing_passed_over",
    "Mabel.StreamStorage.C89_steps_stay"
   ],
   "note": "Proved for the partitions of every dataset that has a folder for each day (C87_usual_partitions shows that year/month/day is one) and for these with by_hour/hour={HH} beneath. The order of the appends is that in which they obtained the module lock; each thread's calls keep their order. What the libraries do with a file that is cut short (refuse it or give a first part of it) is assumed (Torn); the text format is left out because it is not read record by record (C25_text_format_fails), and failing storage is C66's."
  },
  {
   "property": "C90",
   "status": "partial",
   "theorems": [
    "Mabel.StreamStorage.C90_filter_reads_value_partial",
    "Mabel.StreamStorage.C90_finalized_stays_partial",
    "Mabel.StreamStorage.C90_at_any_moment_partial",
    "Mabel.StreamStorage.C90_exact_partial",
    "Mabel.StreamStorage.C90_alike_values_fails",
    "Mabel.StreamStorage.C90_delivered_twice_fails",
    "Mabel.StreamStorage.C90_backout_value_fails",
    "Mabel.StreamStorage.C90_no_value_fails",
    "Mabel.StreamStorage.C90_underscore_fails",
    "Mabel.StreamStorage.C90_date_name_fails"
   ],
   "note": "Proved for values told apart by their letters, digits and white space (exactly the values, if they consist of these: C90_exact_partial), records without two values that are alike in this way, and names of fields of letters, digits and spaces that are not parts of the date. The code does not have the rest of the property: values with the same letters and digits are mixed, a record with two of them is delivered twice, a record whose value is BACKOUT is never delivered, one with an empty list is stored nowhere, the filter is dropped if the field's name has an underscore, and a field named like a part of the date is not partitioned by at all."
  },
  {
   "property": "C91",
   "status": "partial",
   "theorems": [
    "Mabel.StreamStorage.C91_processes_partial",
    "Mabel.StreamStorage.C91_all_is_read_partial",
    "Mabel.StreamStorage.C91_started_again_partial",
    "Mabel.StreamStorage.C91_hours_partial",
    "Mabel.StreamStorage.C91_filter_partial",
    "Mabel.StreamStorage.C91_same_identifier_fails",
    "Mabel.StreamStorage.C91_same_time_fails"
   ],
   "note": "Proved for processes whose identifiers for blobs differ (of any two, one comes before the other at the first character in which they differ) and are, in each process, in order of their time; with folders for the days, for the hours, and for the values of a field (with the limits of C90). The code does not see to it that they differ: two processes with the same number on machines that say they have the same address, or two blobs of one process between which its clock has not moved on, get the same name, and the second takes the place of the first."
  },
  {
   "property": "C92",
   "status": "partial",
   "theorems": [
    "Mabel.Cursor.C92_following_partial",
    "Mabel.StreamStorage.C92_follow_day_partial",
    "Mabel.StreamStorage.C92_follow_value_partial",
    "Mabel.Cursor.C92_earlier_blob_fails",
    "Mabel.Cursor.C92_ninth_blob_fails",
    "Mabel.StreamStorage.C92_part_written_fails"
   ],
   "note": "Proved for blobs that are added after those that are there and up to the next multiple of eight in number, and for one day (or one value on it) to which one process streams, if at the moment of each sitting what has been handed over has been written. The code fails otherwise: a cursor saved with eight blobs is refused when there are nine; if a blob comes before those read, as one for an earlier day or of another process may, one blob is read again and another never; and a blob that is listed before it has been written in full is taken to have been read, so that the rest of it is never delivered."
  },
  {
   "property": "C93",
   "status": "partial",
   "theorems": [
    "Mabel.ErrorStack.C93_ends_iff",
    "Mabel.ErrorStack.C93_text_partial",
    "Mabel.ErrorStack.C93_no_error",
    "Mabel.ErrorStack.C93_marked",
    "Mabel.ErrorStack.C93_label",
    "Mabel.ErrorStack.C93_label_fails",
    "Mabel.ErrorStack.C93_first_lines_fails",
    "Mabel.ErrorStack.C93_circle_fails",
    "Mabel.ErrorStack.C93_message_fails",
    "Mabel.ErrorStack.C93_local_fails",
    "Mabel.TextWrap.C113_error_partial"
   ],
   "note": "What is rendered is proved for every graph of errors in which the errors that led to the one handled can be followed back to a first one (exactly then does it end), for textwrap.fill and os.path.abspath with the properties named Fills and Absolute. The code fails the claim otherwise: two errors each raised from the other make it never return; a local variable whose value has no text makes it raise; the type and message of an error are never shown; for one of the first three lines of a file a line 0 is shown with the text of the last line; and a space in a file name is shown as '=' in the bar.  textwrap.fill itself is modelled in C113, which shows that it has these properties."
  },
  {
   "property": "C94",
   "status": "partial",
   "theorems": [
    "Mabel.Colors.C94_on",
    "Mabel.Colors.C94_again",
    "Mabel.Colors.C94_off_partial",
    "Mabel.Colors.C94_off_fails"
   ],
   "note": "With colours on, for every text. With colours off, for texts of which no opening brace is left; otherwise taking out one word can make another that is not taken out any more ({O{RED}FF} becomes {OFF})."
  },
  {
   "property": "C95",
   "status": "partial",
   "theorems": [
    "Mabel.Context.C95_context",
    "Mabel.Context.C95_errors",
    "Mabel.Context.C95_not_object_fails",
    "Mabel.Context.C95_none_overrides_fails",
    "Mabel.Context.C95_which_file_fails"
   ],
   "note": "Full for what is in the context for each name. The rest fails: a file with a JSON list raises AttributeError, a caller that passes config=None has None under config, and of several files with the name the one read depends on the order in which they are listed."
  },
  {
   "property": "C96",
   "status": "partial",
   "theorems": [
    "Mabel.NullAdapter.C96_once_a_day",
    "Mabel.NullAdapter.C96_one_day_partial",
    "Mabel.NullAdapter.C96_range_fails"
   ],
   "note": "For datasets with a folder for each day the records are delivered once for each day of the range: so it holds for one day (the default) only."
  },
  {
   "property": "C97",
   "status": "partial",
   "theorems": [
    "Mabel.Cloud.C97_range_is_read_partial",
    "Mabel.Cloud.C97_nothing_finished_partial",
    "Mabel.Cloud.C97_minio_resume_fails",
    "Mabel.Cloud.C97_minio_parallel_fails"
   ],
   "note": "For a serial reader from the start, on both services, for datasets that are not a whole bucket and whose last folder has no dot, and runs that are not marked complete without having stored anything (C79 shows that it fails for these). On MinIO every blob is listed once for each hour of the range: a reader that goes on from a saved cursor reads the blob it was in from its beginning, and several processes deliver each record once for each hour; both are shown."
  },
  {
   "property": "C98",
   "status": "partial",
   "theorems": [
    "Mabel.Overlap.C98_read_while_written_partial",
    "Mabel.Overlap.C98_torn_listing_fails"
   ],
   "note": "For all interleavings, with the listing of one folder a single step (different folders at different moments). A listing that takes its time can miss a blob that is stored before the marker and see the marker: part of a run is then delivered, which is shown. As in C86, runs of a day have to begin in different seconds (C86_same_second_fails)."
  },
  {
   "property": "C99",
   "status": "partial",
   "theorems": [
    "Mabel.Split.C99_split_job_partial",
    "Mabel.Split.C99_first_marks_fails",
    "Mabel.Split.C99_failed_part_fails"
   ],
   "note": "Proved for the moments when every part has finalized and ended, and for all moments at which none is done. In between it is false: the first part that ends marks the frame as complete for all of them, and a reader then delivers what the other parts happen to have stored, even half a blob of a part that has died (C99_first_marks_fails); and a part that reports a failure is read with the others (C99_failed_part_fails). That a writer that is given the frame of another uses the same folder is C83_split_job. The names of the blobs of different parts have to differ (they hold the time and the process)."
  },
  {
   "property": "C100",
   "status": "partial",
   "theorems": [
    "Mabel.SqlReader.C100_lists_partial",
    "Mabel.SqlReader.C100_list_partial",
    "Mabel.SqlReader.C100_text_partial",
    "Mabel.SqlReader.C100_select_partial",
    "Mabel.SqlReader.C100_empty_list",
    "Mabel.SqlReader.C100_until_it_raises",
    "Mabel.SqlReader.C100_function_fails",
    "Mabel.SqlReader.C100_raising_fails"
   ],
   "note": "Proved for filters that raise on none of the records. A filter that raises on a record silently hides the rest of the blob (C100_until_it_raises says exactly what is delivered, C100_raising_fails is a case with a record of another type), and a filter that is a function, or any object but a text, a tuple or a list, is silently not applied (C100_function_fails). What each predicate means is C42, what conditions mean C43, C44 and C76."
  },
  {
   "property": "C101",
   "status": "partial",
   "theorems": [
    "Mabel.Props.C101_stored_partial",
    "Mabel.Props.C101_reading_changes_nothing",
    "Mabel.Props.C101_classes_partial",
    "Mabel.Props.C101_loop_partial",
    "Mabel.Props.C101_reading_ends_loops_fails",
    "Mabel.Props.C101_nested_loops_fails",
    "Mabel.Props.C101_empty_on_disk_fails",
    "Mabel.Props.C101_empty_records_fails",
    "Mabel.Props.C101_take_moves_loops_fails"
   ],
   "note": "Proved for every program and every method but loops: the answer depends on the records of the set alone. Loops go through all records only if the set was not used before (C101_loop_partial); a method that reads the set ends loops that are under way, and an inner loop takes the records of an outer one. The classes differ for sets without records (on disk they cannot be read) and for records without fields (compressed memory does not deliver them); C101_classes_partial is about all other programs. The JSON and compression libraries are taken to give back what they were given."
  },
  {
   "property": "C102",
   "status": "partial",
   "theorems": [
    "Mabel.SqlReader.C102_text_partial",
    "Mabel.SqlReader.C102_lists_partial",
    "Mabel.SqlReader.C102_list_partial",
    "Mabel.SqlReader.C102_function_partial",
    "Mabel.SqlReader.C102_reader_text_partial",
    "Mabel.SqlReader.C102_reader_lists_partial",
    "Mabel.SqlReader.C102_converted_partial",
    "Mabel.SqlReader.C102_other_fails",
    "Mabel.SqlReader.C102_raising_fails",
    "Mabel.SqlReader.C102_empty_record_fails"
   ],
   "note": "Proved for texts whose condition is defined on the records, tuples that apply to the records and functions that do not raise. A filter of another kind is not refused: None comes back instead of a set. Where a filter raises, a set raises and a reader is silent. A reader without a filter drops empty records, so the two routes agree only if there are none."
  },
  {
   "property": "C103",
   "status": "partial",
   "theorems": [
    "Mabel.Text.C103_tokens",
    "Mabel.Text.C103_letters",
    "Mabel.Text.C103_again",
    "Mabel.Text.C103_words_fails",
    "Mabel.Text.C103_field_name",
    "Mabel.Text.C103_field_name_fails"
   ],
   "note": "Words that have only punctuation between them become one, letters outside ASCII are dropped, and different names of fields can have the same safe name. str.lower is a parameter."
  },
  {
   "property": "C104",
   "status": "partial",
   "theorems": [
    "Mabel.BlobIds.C104_own_names",
    "Mabel.BlobIds.C104_distinct",
    "Mabel.BlobIds.C104_ascending",
    "Mabel.BlobIds.C104_run",
    "Mabel.BlobIds.C104_last_finished_is_read",
    "Mabel.BlobIds.C104_stream",
    "Mabel.BlobIds.C104_processes",
    "Mabel.BlobIds.C104_fork_fails",
    "Mabel.BlobIds.C104_clock_fails"
   ],
   "note": "Proved for clocks that move between the blobs of a process (and show years from 2006 to 2554); what the theorems about histories of runs and of streams ask of names follows (C104_run, C104_stream, C104_processes). If the clock stands still between two blobs the later replaces the earlier; if it is set back the order of the records changes; a process that is a copy of another (fork) remembers the number of the other."
  },
  {
   "property": "C105",
   "status": "partial",
   "theorems": [
    "Mabel.BigQuery.C105_bigquery_fails",
    "Mabel.BigQuery.C105_bigquery_table_fails"
   ],
   "note": "For disks and buckets see C72, C79 and C97. With BigQuery the code falsifies the claim: the bytes are dropped and nothing raises; the table is always `justin` of `users`, made without columns or expiration. The failures of the library itself are not modelled."
  },
  {
   "property": "C106",
   "status": "partial",
   "theorems": [
    "Mabel.FunctionTable.C106_names",
    "Mabel.FunctionTable.C106_arity",
    "Mabel.FunctionTable.C106_null",
    "Mabel.FunctionTable.C106_null_text_fails",
    "Mabel.FunctionTable.C106_null_raises_fails",
    "Mabel.FunctionTable.C106_round",
    "Mabel.FunctionTable.C106_truncate",
    "Mabel.FunctionTable.C106_double",
    "Mabel.FunctionTable.C106_len",
    "Mabel.FunctionTable.C106_sort",
    "Mabel.FunctionTable.C106_sort_refused",
    "Mabel.FunctionTable.C106_between",
    "Mabel.FunctionTable.C106_between_bounds_fails",
    "Mabel.FunctionTable.C106_select_partial",
    "Mabel.FunctionTable.C106_select_null_fails",
    "Mabel.FunctionTable.C106_between_value",
    "Mabel.FunctionTable.C106_unknown",
    "Mabel.FunctionTable.C106_parts_by_name",
    "Mabel.FunctionTable.C106_text_by_name",
    "Mabel.FunctionTable.C106_concat_by_name",
    "Mabel.FunctionTable.C106_trim",
    "Mabel.FunctionTable.C106_cut_by_name",
    "Mabel.FunctionTable.C106_cut_number",
    "Mabel.FunctionTable.C106_whole",
    "Mabel.FunctionTable.C106_isnone",
    "Mabel.FunctionTable.C106_adddays_by_name",
    "Mabel.FunctionTable.C106_daysdiff_by_name"
   ],
   "note": "Absent values are handed through by the parts of dates, differences of dates and conversions to numbers; the functions of texts take the word None for them, and LEN, ROUND, SORT and BETWEEN raise, which silently ends the blob in a statement (C106_select_null_fails). Statements that use only functions with a value for every argument answer with every matching record. BETWEEN leaves the bounds out. DATE, TIME, NOW, HASH and RANDOM (WEEK is C110, MD5 is C111), ROUND to digits, and ADDDAYS of fractions of days are parameters; floats are fractions. Each function is also stated by the name under which statements call it (Props/FunctionNames.lean)."
  },
  {
   "property": "C107",
   "status": "partial",
   "theorems": [
    "Mabel.SqlReader.C107_stored_partial",
    "Mabel.SqlReader.C107_select_partial",
    "Mabel.SqlReader.C107_star_partial",
    "Mabel.SqlReader.C107_group_partial",
    "Mabel.SqlReader.C107_total_partial",
    "Mabel.SqlReader.C107_filter_lists_partial",
    "Mabel.SqlReader.C107_filter_text_partial",
    "Mabel.SqlReader.C107_nothing_finished_partial"
   ],
   "note": "Missing for the full claim is what C97 and C49 leave out: datasets whose last folder has a dot in its name, runs that are marked complete without having stored anything (C79), a whole bucket as a dataset, and the statements C49 shows to be answered wrongly."
  },
  {
   "property": "C108",
   "status": "proved",
   "theorems": [
    "Mabel.Summaries.C108_mean",
    "Mabel.Summaries.C108_mean_between",
    "Mabel.Summaries.C108_variance",
    "Mabel.Summaries.C108_order",
    "Mabel.Summaries.C108_refused"
   ],
   "note": "The library's exact arithmetic is modelled (number of values, sum and sum of squares); its last step, rounding to a float, is not. standard_deviation is not modelled."
  },
  {
   "property": "C109",
   "status": "partial",
   "theorems": [
    "Mabel.SqlReader.C109_streamed_partial",
    "Mabel.SqlReader.C109_finalized_stays_partial",
    "Mabel.SqlReader.C109_hours_partial",
    "Mabel.SqlReader.C109_processes_partial"
   ],
   "note": "Spec/Answered.lean says what it is to be answered as if the dataset were given records. Missing: the statements C49 leaves out (proved to fail there), and identifiers made at the same time by two processes (C91)."
  },
  {
   "property": "C110",
   "status": "proved",
   "theorems": [
    "Mabel.Week.C110_week",
    "Mabel.Week.C110_text",
    "Mabel.Week.C110_weeks",
    "Mabel.Week.C110_january",
    "Mabel.Week.C110_with_year_fails"
   ],
   "note": "Spec/Week.lean says what a week is by ISO 8601, without the model: the number of Thursdays of its year up to that of the week. `C110_with_year_fails` is the witness that the pair of YEAR and WEEK is shared by days of different weeks."
  },
  {
   "property": "C111",
   "status": "partial",
   "theorems": [
    "Mabel.Remembered.C111_remembered",
    "Mabel.Remembered.C111_bounded",
    "Mabel.Remembered.C111_texts",
    "Mabel.Remembered.C111_like",
    "Mabel.Remembered.C111_md5_partial",
    "Mabel.Remembered.C111_md5_fails",
    "Mabel.Remembered.C111_md5_list_fails"
   ],
   "note": "For LIKE and the labels of statements it holds for all histories. For MD5 it fails: `lru_cache` takes the keys of True and 1.0 for the same, so that MD5(1.0) after MD5(True) is the digest of True; and lists raise TypeError. `C111_md5_partial` leaves out just these."
  },
  {
   "property": "C112",
   "status": "partial",
   "theorems": [
    "Mabel.CloudStream.C112_finalized_stays_partial",
    "Mabel.CloudStream.C112_streamed_is_read_partial",
    "Mabel.CloudStream.C112_at_any_moment_partial",
    "Mabel.CloudStream.C112_hours_stay_partial",
    "Mabel.CloudStream.C112_hours_are_read_partial",
    "Mabel.CloudStream.C112_values_stay_partial",
    "Mabel.CloudStream.C112_filter_reads_value_partial",
    "Mabel.CloudStream.C112_writer_again"
   ],
   "note": "Missing: datasets whose folders are a bucket only, or whose last folder has a dot in its name (C79 has the witnesses that listing fails there), and for partitions by a field what is missing in C90. `C112_writer_again` shows that the code, which keeps one inner writer for each target, stores the same objects as the model, which makes one for each blob. An object is stored whole or not at all, as the services promise."
  },
  {
   "property": "C113",
   "status": "partial",
   "theorems": [
    "Mabel.TextWrap.C113_ends",
    "Mabel.TextWrap.C113_refused",
    "Mabel.TextWrap.C113_keeps",
    "Mabel.TextWrap.C113_fits",
    "Mabel.TextWrap.C113_words",
    "Mabel.TextWrap.C113_unchanged",
    "Mabel.TextWrap.C113_long",
    "Mabel.TextWrap.C113_begin",
    "Mabel.TextWrap.C113_fills",
    "Mabel.TextWrap.C113_error_partial",
    "Mabel.TextWrap.C113_again_fails",
    "Mabel.TextWrap.C113_last_feed_fails",
    "Mabel.TextWrap.C113_wide_blank_fails",
    "Mabel.TextWrap.C113_tied",
    "Mabel.TextWrap.C113_hyphen",
    "Mabel.TextWrap.C113_dash"
   ],
   "note": "Everything but the last sentence: a line in front of a word that is longer than a line can keep a blank at its end, so that wrapping again changes it (C113_again_fails). Line feeds at the end of the text are lost, and a word next to a blank outside ASCII can be broken. textwrap of Python's library is modelled for the options the code uses; C113_error_partial gives C93_text_partial without its hypothesis on textwrap. A word whose hyphens are not between letters (a date, a number, an option) and that fits on a line is on one line (C113_tied); two words of letters with a hyphen between them that do not fit together are broken right after the hyphen (C113_hyphen).  Two words with a dash between them are broken after the dash (C113_dash)."
  },
  {
   "property": "C114",
   "status": "partial",
   "theorems": [
    "Mabel.Disk.C114_unmarked_partial",
    "Mabel.Disk.C114_marked",
    "Mabel.Disk.C114_power_loss_fails"
   ],
   "note": "Proved when the marker is lost or had not been written; C114_marked says exactly what is listed when it is left. Then the claim is false of the code, which flushes nothing: the marker can be left and blobs be lost or empty (C114_power_loss_fails), and the finished run before is not read any more. For a process that dies, or a disk that keeps the order of what is written, see C84. Files from before the run are taken to be safe."
  },
  {
   "property": "C115",
   "status": "partial",
   "theorems": [
    "Mabel.SqlReader.C115_streamed_partial",
    "Mabel.SqlReader.C115_finalized_stays_partial",
    "Mabel.SqlReader.C115_at_any_moment_partial",
    "Mabel.SqlReader.C115_hours_partial",
    "Mabel.SqlReader.C115_values_partial"
   ],
   "note": "Missing: the statements C49 leaves out and the datasets C112 leaves out (whole buckets, or a dot in the name of the last folder)."
  },
  {
   "property": "C116",
   "status": "partial",
   "theorems": [
    "Mabel.CloudStream.C116_processes_partial",
    "Mabel.CloudStream.C116_finalized_partial",
    "Mabel.CloudStream.C116_started_again_partial",
    "Mabel.CloudStream.C116_hours_partial",
    "Mabel.CloudStream.C116_filter_partial",
    "Mabel.CloudStream.C116_same_identifier_fails",
    "Mabel.SqlReader.C116_statements_partial"
   ],
   "note": "Missing: datasets that C112 leaves out (whole buckets, or a dot in the name of the last folder), and identifiers of which neither comes before the other: with equal ones, records are lost (C116_same_identifier_fails)."
  },
  {
   "property": "C117",
   "status": "partial",
   "theorems": [
    "Mabel.History.C117_sittings_partial",
    "Mabel.History.C117_many_more_partial",
    "Mabel.History.C117_run_again_fails",
    "Mabel.History.C117_replaced_fails",
    "Mabel.Cursor.C117_what_is_delivered",
    "Mabel.Cursor.C117_first_blob_partial",
    "Mabel.Cursor.C117_all_read_fails"
   ],
   "note": "Proved while no newer run is finished (C117_sittings_partial). When one is, the exact result is C117_what_is_delivered: the new blobs without as many of the first as were left behind of the old, or an IndexError if there are more of them, rounded up to eights. So a caller in its first blob gets everything (C117_first_blob_partial), one that meets many more blobs is refused (C117_many_more_partial), and others get a part or nothing, without an error (C117_all_read_fails, C117_run_again_fails, C117_replaced_fails)."
  },
  {
   "property": "C118",
   "status": "partial",
   "theorems": [
    "Mabel.CloudStream.C118_follow_day_partial",
    "Mabel.CloudStream.C118_follow_value_partial",
    "Mabel.CloudStream.C118_minio_two_days_fails"
   ],
   "note": "Proved for readers of one day on both services, at every moment, if the day does not get more blobs than the saved cursor has room for (the next multiple of eight, as C92_ninth_blob_fails) and the hashes of the listed names differ. On MinIO a reader of two days begins again at each sitting (C118_minio_two_days_fails: every blob is listed once for each hour of the range)."
  },
  {
   "property": "C119",
   "status": "partial",
   "theorems": [
    "Mabel.History.C119_days_in_turn_partial",
    "Mabel.History.C119_out_of_turn_fails",
    "Mabel.Cloud.C119_days_in_turn_cloud_partial"
   ],
   "note": "Proved on a disk and on object storage if the last reader lists no more blobs than saved cursors have room for (the next multiple of eight, C92_ninth_blob_fails), the hashes of the listed names differ and days finish in turn. A day that is written out of turn, before one that has been read, makes the caller miss records and get others twice (C119_out_of_turn_fails); a day that is written again is C117; on MinIO a reader of several days cannot be gone on with (C118_minio_two_days_fails)."
  },
  {
   "property": "C120",
   "status": "partial",
   "theorems": [
    "Mabel.CloudOverlap.C120_read_while_written_partial",
    "Mabel.CloudOverlap.C120_same_second_fails"
   ],
   "note": "Proved for all interleavings, for the datasets and runs of C97, with the listing of one folder a single step (different folders at different moments). False for two runs for a day that begin in the same second: they have the same frame, and what one has stored so far is delivered with the other that is done (C120_same_second_fails). For a disk see C98."
  },
  {
   "property": "C121",
   "status": "partial",
   "theorems": [
    "Mabel.CloudSplit.C121_split_job_partial",
    "Mabel.CloudSplit.C121_first_marks_fails",
    "Mabel.CloudSplit.C121_failed_part_fails"
   ],
   "note": "Proved for all interleavings when every part has ended with a finalize, and as long as none is done, for the datasets and runs of C97. False between the first part that ends and the last: the first marks the frame as complete for all of them (C121_first_marks_fails); and for a part that reports a failure (C121_failed_part_fails). For a disk see C99."
  },
  {
   "property": "C122",
   "status": "partial",
   "theorems": [
    "Mabel.TempFiles.C122_own_records_partial",
    "Mabel.TempFiles.C122_only_live",
    "Mabel.TempFiles.C122_others_kept",
    "Mabel.TempFiles.C122_nothing_left",
    "Mabel.TempFiles.C122_reused_name_fails",
    "Mabel.TempFiles.C122_same_name_fails",
    "Mabel.TempFiles.C122_killed_fails"
   ],
   "note": "That nothing is left and that other files are not touched is proved for every history. That a set gives its own records is proved if no two processes ever had the same name (so for every history of one process, even if it gets a name again), and for sets that are not empty (C33_empty_set_fails). Without that it is false: a process that ends removes the files of all names it ever had, also of one that another process has by now (C122_reused_name_fails), and a name is free from when it is given to when the file is opened (C122_same_name_fails). The files of a process that is killed stay (C122_killed_fails)."
  },
  {
   "property": "C123",
   "status": "partial",
   "theorems": [
    "Mabel.Writer.C123_stays",
    "Mabel.Writer.C123_later_records",
    "Mabel.Writer.C123_grows_fails"
   ],
   "note": "The first two parts are proved (for later records with storage that works; failing storage is C05). That later records are all there or none is false: the frame is marked as complete already, and an append that fills a blob stores it there at once (C123_grows_fails). An append after finalize is not refused."
  },
  {
   "property": "C124",
   "status": "partial",
   "theorems": [
    "Mabel.Timestamps.C124_instant",
    "Mabel.Timestamps.C124_every",
    "Mabel.Timestamps.C124_reader",
    "Mabel.Timestamps.C124_milliseconds_fails",
    "Mabel.Timestamps.C124_huge_fails",
    "Mabel.Timestamps.C124_digits_fails",
    "Mabel.Timestamps.C124_writer",
    "Mabel.Timestamps.C124_writer_fails",
    "Mabel.Timestamps.C124_float",
    "Mabel.Timestamps.C124_float_whole",
    "Mabel.Timestamps.C124_infinite_fails"
   ],
   "note": "The first two sentences are proved, with a local time zone of UTC. The last is false: a number past the year 9999, such as one of milliseconds, is taken for no date, and the reader silently uses the present hour (C124_milliseconds_fails); one of nanoseconds raises an error that is not caught (C124_huge_fails); 20240105 is a day of 1970 (C124_digits_fails). To a writer a date or a text is what it is to a reader (C124_writer), but every number is no date, and it writes to the present one (C124_writer_fails). Floats are taken as exact numbers; an infinite one raises (C124_infinite_fails)."
  }
 ]
}