import Verif.Files
/-! # Spec: what a crash may leave behind -/

namespace Sigtool.Spec

/-- A directory and file contents that may be found after a crash in state `fs`: the directory is the current one or an earlier
one that may still be on disk, files whose content is on disk have that content, others have any content.  If only the program
is killed, directory and contents are the current ones, which is one of the images. -/
structure CrashImage (fs : FS) (dir : Dir) (data : Nat → Bytes) : Prop where
  dir : dir = fs.dir ∨ dir ∈ fs.journal
  data : ∀ i, fs.dirty i = false → data i = fs.data i

/-- The file `p` is on disk: no pending change of its directory entry, and its content is synced. -/
def OnDisk (fs : FS) (p : Path) : Prop :=
  (∀ d ∈ fs.journal, d p = fs.dir p) ∧ ∀ i, fs.dir p = some (.file i) → fs.dirty i = false

/-- Name and inode of the temporary file are not in use (the name is random, the inode chosen by the kernel). -/
structure Fresh (fs : FS) (tmp : Path) (inode : Nat) : Prop where
  name : ∀ d ∈ fs.dir :: fs.journal, d tmp = none
  inode : ∀ d ∈ fs.dir :: fs.journal, ∀ p, d p ≠ some (.file inode)

/-- Killing the program is a crash image. -/
theorem CrashImage.kill (fs : FS) : CrashImage fs fs.dir fs.data := ⟨.inl rfl, fun _ _ => rfl⟩

end Sigtool.Spec
