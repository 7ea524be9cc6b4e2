import Verif.Spec.Paths
import Verif.Model.World
/-! What a power failure does to files that were never synced. -/
namespace Verif.Spec

/-- The files found after a power failure. `synced` is the state when everything was last written to disk, `fs` the
state in which the power failed, `fs'` what is there afterwards.

The server makes no `fsync` call (local.rs has none), so the operating system may still hold back the end of what was
written to a file. Names, directories, owners and modes are taken to be on disk, as on a file system with a journal for
these only; what was in a file at `synced` is still there. -/
structure PowerLoss (synced fs fs' : FS) : Prop where
  names : fs'.names = fs.names
  dirs : fs'.dirs = fs.dirs
  next : fs'.next = fs.next
  /-- The end of a file may be missing. -/
  cut : ∀ i, (fs'.inodes i).data <+: (fs.inodes i).data
  /-- The part which was there at `synced` is not. -/
  kept : ∀ i, i < synced.next → (synced.inodes i).data <+: (fs.inodes i).data →
    (synced.inodes i).data <+: (fs'.inodes i).data
  uid : ∀ i, (fs'.inodes i).uid = (fs.inodes i).uid
  mode : ∀ i, (fs'.inodes i).mode = (fs.inodes i).mode

/-- A power failure in which names may be lost as well. Each name is found as it was at one of the `moments` since
everything was last written to disk, not necessarily the same for all of them (the journal of a file system would
take the same moment for all). Of every file the end may be missing, as in `PowerLoss`. -/
structure Outage (moments : List FS) (synced fs fs' : FS) : Prop where
  name : ∀ p, ∃ m ∈ moments, fs'.get p = m.get p
  cut : ∀ i, (fs'.inodes i).data <+: (fs.inodes i).data
  kept : ∀ i, i < synced.next → (synced.inodes i).data <+: (fs.inodes i).data →
    (synced.inodes i).data <+: (fs'.inodes i).data

end Verif.Spec
