import Verif.Model.Message
/-!
# Which errors have the same message
-/
namespace GP.Spec
variable {IO : Type}

/-- An error in reading XML and one in writing it, with the same text. -/
def ReadOrWrite (e e' : Problem IO) : Prop := ∃ s, (e = .xmlParse s ∧ e' = .xmlWrite s) ∨ (e = .xmlWrite s ∧ e' = .xmlParse s)

/-- Two errors of the system for the same kind of file, which the system prints alike. -/
def SameIo (debug : Option IO → Str) (e e' : Problem IO) : Prop :=
  ∃ i j, debug i = debug j ∧ ((e = .glifFileIo i ∧ e' = .glifFileIo j) ∨ (e = .imageIo i ∧ e' = .imageIo j))

end GP.Spec
