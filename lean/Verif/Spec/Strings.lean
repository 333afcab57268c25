import Verif.Basic
/-! Specification: control characters, file names and case. -/
namespace GP.Spec

/-- ASCII control character: U+0000 to U+001F and U+007F. -/
def Control (c : Char) : Prop := c.toNat ≤ 0x1f ∨ c.toNat = 0x7f

instance (c : Char) : Decidable (Control c) := by unfold Control; infer_instance

/-- The text without its control characters. -/
def cleaned (s : Str) : Str := s.filter fun c => decide (¬ Control c)

/-- Some control character comes after a character outside ASCII. -/
def ControlAfterNonAscii (s : Str) : Prop :=
  ∃ (i j : Nat) (x c : Char), i < j ∧ s[i]? = some x ∧ s[j]? = some c ∧ 128 ≤ x.toNat ∧ Control c

/-- The lower case form of an ASCII letter; other characters stay. -/
def lower (c : Char) : Char :=
  if 65 ≤ c.toNat ∧ c.toNat ≤ 90 then Char.ofNat (c.toNat + 32) else c

/-- Equal for a file system that ignores ASCII case. -/
def SameIgnoringCase (a b : Str) : Prop := a.map lower = b.map lower

/-- Names for which the underscores do their job: no capital Z, and no lower case letter `a` to `y`
directly before an underscore. -/
def CaseSafe (n : Str) : Prop :=
  'Z' ∉ n ∧ ∀ (i : Nat) (c : Char), n[i]? = some c → n[i + 1]? = some '_' → ¬ (97 ≤ c.toNat ∧ c.toNat ≤ 121)

/-- Names without capital letters and `z`, and without a letter `a` to `y` directly before an underscore. -/
def CaseUnique (n : Str) : Prop :=
  (∀ c ∈ n, ¬ (65 ≤ c.toNat ∧ c.toNat ≤ 90) ∧ c ≠ 'z') ∧
  ∀ (i : Nat) (c : Char), n[i]? = some c → n[i + 1]? = some '_' → ¬ (97 ≤ c.toNat ∧ c.toNat ≤ 121)

end GP.Spec
