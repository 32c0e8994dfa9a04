import Verif.Model.Listing

/-!
# Opening a reader

Models the checks of `Reader` (mabel/data/readers/reader.py) and how the dates, the freshness limit and
the listing combine.  The reading of the blobs themselves is in `Verif.Model.Blobs`.
-/

namespace Mabel.Reader
open Mabel.Py Mabel.Listing Mabel.Dates

/-- base_inner_reader.py:56-63 `step_back_a_day`, `k` times, on one of the reader's dates:
`date -= timedelta(days=1)` (OverflowError before 1 January of year 1). -/
def stepBack : Nat → DateTime → Except Err DateTime
  | 0, d => .ok d
  | k + 1, d => match stepBack k d with
    | .error e => .error e
    | .ok d => if d.ordinal ≤ 1 then .error .overflow else .ok d.prevDay

/-- The parameters of `Reader` that decide which blobs are read. -/
structure Config where
  dataset : Str
  /-- reader.py:162: `raw_path` drops the partitions -/
  partitions : List Str
  filter : Option PartitionFilter
  start : DateArg
  stop : DateArg
  freshness : Str
  /-- reader.py:149: none given and an empty list are the same -/
  prefixes : List Str

/-- reader.py:149-151: may the dataset be opened? -/
def allowed (prefixes : List Str) (dataset : Str) : Bool :=
  prefixes.isEmpty || prefixes.any (fun p => startsWith p dataset)

/-- base_inner_reader.py:89-93 for a reader that has stepped back `k` days; `now` is the time the reader
was made, `rnd` what replaces `{stem}`. -/
def listing (c : Config) (now : DateTime) (rnd : Str) (blobsAt : Paths.Posix → List Str) (k : Nat) :
    Except Err (List Str) :=
  let (s, e) := readerDates now c.start c.stop
  match stepBack k s, stepBack k e with
  | .error err, _ => .error err
  | _, .error err => .error err
  | .ok s, .ok e =>
    match dateRange now (.datetime s) (.datetime e) with
    | .error err => .error err
    | .ok dates => listBlobs (readerDataset c.dataset c.partitions) rnd c.filter blobsAt dates

/-- reader.py:181-186: the freshness limit, in seconds; only for a single date. -/
def freshnessLimit (c : Config) (now : DateTime) : Except Err Int :=
  let limit := parseDelta c.freshness
  let (s, e) := readerDates now c.start c.stop
  if limit ≠ 0 ∧ s ≠ e then .error .invalidCombination else .ok limit

/-- reader.py:146-266: open a reader and find the blobs it will read (with the number of days stepped
back). -/
def openReader (c : Config) (now : DateTime) (rnd : Str) (blobsAt : Paths.Posix → List Str) :
    Except Err (Nat × List Str) :=
  if !allowed c.prefixes c.dataset then .error .accessDenied
  else match freshnessLimit c now with
    | .error e => .error e
    | .ok limit => chooseBlobs limit (listing c now rnd blobsAt)

end Mabel.Reader
