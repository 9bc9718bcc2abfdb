import Verif.Model.Output

/-!
# What a run leaves in the target directory
-/

set_option autoImplicit false

namespace Verif

/-- the directory after all these files have been written in full -/
def Dir.withFiles (d : Dir) (files : List (FileName × Generator)) : Dir := files.foldl (fun d f => d.set f.1 f.2.output) d

/-- the disk takes these files -/
def Disk.Takes (disk : Disk) (files : List (FileName × Generator)) : Prop := ∀ f ∈ files, disk.creates f.1 = true ∧ f.2.output.length ≤ disk.room f.1

/-- What may be in the directory when the process is killed while it writes `files`: some of the files are complete, and the next one has been created and something has been written by some of the
calls of the generator, the last of which may have been cut short (by `room`); what is in the buffer is lost. -/
inductive Killed (d : Dir) (files : List (FileName × Generator)) : Dir → Prop
  | between (k : Nat) : Killed d files (d.withFiles (files.take k))
  | within (k : Nat) (name : FileName) (g : Generator) (j room : Nat) : files[k]? = some (name, g) →
      Killed d files ((d.withFiles (files.take k)).set name (writePieces bufCapacity ⟨[], room, []⟩ (g.pieces.take j)).1.written)

/-- each file is as before, or it has the beginning of what should be in it; other files are as before -/
def OldOrBegun (d : Dir) (files : List (FileName × Generator)) (d' : Dir) : Prop :=
  ∀ n, d' n = d n ∨ ∃ g p, (n, g) ∈ files ∧ p <+: g.output ∧ d' n = some p

end Verif
