import Verif.Spec.Cli
import Verif.Spec.Args
/-!
# Runs in two file systems
-/

namespace Bulloak.Spec
open Bulloak

/-- Both runs print the same and end in the same way. -/
def ShowSame (r r' : Run) : Prop := r.stdout = r'.stdout ∧ r.stderr = r'.stderr ∧ r.exit = r'.exit

/-- From the file systems `fs` and `fs'` the same files were written with the same contents: whatever path is looked at, both hold the same there
afterwards or both are as before. -/
def WroteSame (fs fs' after after' : Fs) : Prop :=
  ∀ p, after.state p = after'.state p ∨ (after.state p = fs.state p ∧ after'.state p = fs'.state p)

/-- Both file systems hold the same at `p`, and `p` can be written in both or in none. -/
def AgreeAt (fs fs' : Fs) (p : FPath) : Prop := fs.state p = fs'.state p ∧ fs.writable p = fs'.writable p

/-- Nothing is at `p` in one of the file systems exactly if nothing is there in the other. -/
def BothThere (fs fs' : Fs) (p : FPath) : Prop := (fs.state p = .absent ↔ fs'.state p = .absent)

end Bulloak.Spec
