import Verif.Model.History

/-!
# Runs of batch writers that overlap in time

The steps of mabel/data/writers/batch_writer.py and mabel/adapters/disk/disk_writer.py on one disk
(`Verif.Model.History`, `Verif.Model.Disk`), when several runs are under way at the same time, and a reader
(mabel/adapters/disk/disk_reader.py) lists and reads while they are.
-/

namespace Mabel.Overlap
open Mabel.Py Mabel.Paths Mabel.Naming
variable {ρ : Type}

/-- The disk after the first `k` of the steps that processes take on it, in the order in which they are taken; each step
is marked with the process that takes it.  (disk_writer.py:13-28: there is no lock of any kind; each system call is a
step.) -/
def diskAt (d : Disk.Disk) (steps : List (Nat × Disk.Op)) (k : Nat) : Except Err Disk.Disk :=
  Disk.exec d ((steps.take k).map (·.2))

/-- What a reader is given that lists the folder `p` when `m p` steps have been taken (disk_reader.py:12-16).
Simplification: one folder is listed in a single step (see `tornBlobsAt`). -/
def blobsAt (disks : Nat → Disk.Disk) (m : Posix → Nat) (p : Posix) : List Str :=
  diskBlobsAt (disks (m p)).names p

/-- The same for a listing that takes its time, and finds a file if it is there when `m` says (disk_reader.py:13-15: the
folders are walked one after the other, and whether a name is that of a file is asked for each). -/
def tornBlobsAt (final : Disk.Disk) (disks : Nat → Disk.Disk) (m : Posix → Nat) (p : Posix) : List Str :=
  diskBlobsAt (final.names.filter (fun q => decide (q ∈ (disks (m q)).names))) p

/-- What is read of a blob when `m x` steps have been taken (disk_reader.py:18-20). -/
def readAt (disks : Nat → Disk.Disk) (m : Str → Nat) (x : Str) : Except Err Disk.Bytes :=
  Disk.read (disks (m x)) x

end Mabel.Overlap
