import Verif.Float.TextLemmas
/-!
# `IntegerOrFloat`

The crate `integer_or_float` is a dependency of `/repo`, its source is not available; this is the
behaviour assumed of it (see DESIGN.md): an `i32` or an `f32`, `From<f32>` gives `Float`,
parsing tries `i32` and then `f32`, printing prints the payload.
Used in `/repo` at src/point.rs 12-27, src/component.rs 13-37, src/color.rs 3-15,
src/guideline.rs 5-36, src/image.rs 16-97, src/anchor.rs 3-78, src/matrix.rs 13-23.
-/
open Fl Fl.Text

/-- `i` fits in an `i32`. -/
def i32ok (i : Int) : Bool := decide (-(2 ^ 31) ≤ i) && decide (i < 2 ^ 31)

inductive IOF where
  | int (i : Int) (h : i32ok i = true := by decide)
  | float (f : F32)
  deriving DecidableEq, Repr

namespace IOF

/-- `Default`: `Integer(0)`. -/
instance : Inhabited IOF := ⟨.int 0⟩

/-- `f32::from` -/
def toF32 : IOF → F32
  | int i _ => Flt.ofInt b32 i
  | float f => f

/-- `f64::from` -/
def toF64 : IOF → F64
  | int i _ => Flt.ofInt b64 i
  | float f => F32.to64 f

/-- `From<f32>` -/
def ofF32 (f : F32) : IOF := .float f

/-- `to_string` -/
def text : IOF → Str
  | int i _ => showInt i
  | float f => showFloat f

/-- `FromStr` / `TryFrom<&str>` -/
def parse (s : Str) : Option IOF :=
  match parseI32 s with
  | some i => if h : i32ok i = true then some (.int i h) else none
  | none => (parseFloat b32 s).map .float

/-- `holding_integer().is_ok()` -/
def isInt : IOF → Bool
  | int .. => true
  | float _ => false

/-- `holding_float().ok()` -/
def floatPart : IOF → Option F32
  | int .. => none
  | float f => some f

theorem i32ok_iff (i : Int) : i32ok i = true ↔ -(2 ^ 31) ≤ i ∧ i < 2 ^ 31 := by
  simp [i32ok]

theorem parseI32_ok {s : Str} {i : Int} (h : parseI32 s = some i) : i32ok i = true := by
  rw [i32ok_iff]
  unfold parseI32 at h
  split at h
  · split at h
    · split at h
      · cases h; omega
      · cases h
    · cases h
  · split at h
    · split at h
      · cases h; omega
      · cases h
    · cases h
  · split at h
    · split at h
      · cases h; omega
      · cases h
    · cases h

theorem parse_int (i : Int) (h : i32ok i = true) : parse (text (.int i h)) = some (.int i h) := by
  unfold parse IOF.text
  have := (i32ok_iff i).1 h
  rw [parseI32_showInt this.1 this.2]
  simp [h]

end IOF

namespace Fl
open Text

theorem roundU_pos {f : Fmt} {n : Nat} (h : 0 < n) : 0 < f.roundU n 1 := by
  unfold Fmt.roundU
  simp only [Nat.div_one, Nat.one_mul]
  have hN : 0 < n * 2 ^ f.u := Nat.mul_pos h (Nat.pow_pos (by decide))
  by_cases hs : f.shift (n * 2 ^ f.u) = 0
  · rw [hs]
    simp only [Nat.pow_zero, rne, Nat.mod_one, Nat.div_one]
    simp
    omega
  · have : 0 < f.shift (n * 2 ^ f.u) * 2 ^ (f.p - 1) :=
      Nat.mul_pos (by omega) (Nat.pow_pos (by decide))
    omega

theorem round_pos {f : Fmt} (hf : 0 < f.inf) {n : Nat} (h : 0 < n) : 0 < f.round n 1 := by
  unfold Fmt.round
  have := roundU_pos (f := f) h
  omega

theorem parseNat_some {s : Str} {n : Nat} (h : parseNat 10 s = some n) :
    s ≠ [] ∧ s.all (isDigit 10) = true ∧ ofDigits 10 s = n := by
  unfold parseNat at h
  split at h
  next h' => cases h; exact ⟨h'.1, h'.2, rfl⟩
  next => cases h

theorem parseUnsignedFloat_nat {f : Fmt} (neg : Bool) {s : Str} {n : Nat}
    (h : parseNat 10 s = some n) : parseUnsignedFloat f neg s = some (Flt.ofFrac f neg n 1) := by
  obtain ⟨h1, h2, h3⟩ := parseNat_some h
  unfold parseUnsignedFloat
  rw [parseMag_digits h1 h2]
  simp only [decOrd_le, dif_pos, h3]
  simp [decOrd, Flt.ofFrac]

/-- If a text is an `i32`, then reading it as an `f32` gives the same number, except that `-0`
keeps its sign. -/
theorem parseI32_float {f : Fmt} (hp : 1 ≤ f.p) (hf : 0 < f.inf) {s : Str} {i : Int}
    (h : parseI32 s = some i) :
    ∃ x, parseFloat f s = some x ∧ Flt.ofInt f i = x.normZero := by
  have aux : ∀ (neg : Bool) (n : Nat), (neg = true → 0 < n) →
      Flt.ofFrac f neg n 1 = (Flt.ofFrac f neg n 1).normZero := by
    intro neg n hn
    unfold Flt.ofFrac Flt.normZero
    cases neg with
    | false => simp
    | true =>
      have := round_pos hf (hn rfl)
      simp
      omega
  have aux2 : ∀ n : Nat, Flt.ofInt f (n : Int) = Flt.ofFrac f false n 1 := by
    intro n
    unfold Flt.ofInt
    have : decide ((n : Int) < 0) = false := by simp
    rw [this]
    rfl
  unfold parseI32 at h
  unfold parseFloat
  split at h
  next r =>
    split at h
    next n hn =>
      split at h
      next =>
        cases h
        refine ⟨_, parseUnsignedFloat_nat true hn, ?_⟩
        rcases Nat.eq_zero_or_pos n with h0 | h0
        · subst h0
          simp [Flt.ofInt, Flt.ofFrac, Flt.normZero, round_zero hp]
        · rw [← aux true n (fun _ => h0)]
          unfold Flt.ofInt
          have : decide (-(n : Int) < 0) = true := by simp; omega
          rw [this]
          simp
      next => cases h
    next => cases h
  next r =>
    split at h
    next n hn =>
      split at h
      next =>
        cases h
        refine ⟨_, parseUnsignedFloat_nat false hn, ?_⟩
        rw [← aux false n (by simp), aux2]
      next => cases h
    next => cases h
  next hx1 hx2 =>
    split at h
    next n hn =>
      split at h
      next =>
        cases h
        have hh := parseUnsignedFloat_nat (f := f) false hn
        refine ⟨_, hh, ?_⟩
        rw [← aux false n (by simp), aux2]
      next => cases h
    next => cases h

end Fl

namespace IOF

/-- Writing a number and reading it back: an integer is unchanged; a float is read as a number
with the same `f32` value (`-0` may become `0`). -/
theorem parse_show (x : IOF) : ∃ y, parse (text x) = some y ∧
    (y.toF32 = x.toF32 ∨ y.toF32 = x.toF32.normZero) ∧ (x.isInt = true → y = x) ∧
    (y = x ∨ y.isInt = true) := by
  cases x with
  | int i h => exact ⟨_, parse_int i h, Or.inl rfl, fun _ => rfl, Or.inl rfl⟩
  | float f =>
    unfold parse IOF.text
    simp only []
    have hf := parseFloat_showFloat b32_p f
    match hi : parseI32 (showFloat f) with
    | some i =>
      have hok := parseI32_ok hi
      obtain ⟨x, hx1, hx2⟩ := parseI32_float b32_p (by decide) hi
      rw [hf] at hx1
      cases hx1
      refine ⟨.int i hok, by simp [hok], Or.inr hx2, by simp [isInt], Or.inr rfl⟩
    | none =>
      exact ⟨.float f, by simp [hf], Or.inl rfl, by simp [isInt], Or.inl rfl⟩

/-- The number read back from the text written for `x`. -/
def reread (x : IOF) : IOF := (parse (text x)).getD x

theorem parse_show_eq (x : IOF) : parse (text x) = some (reread x) := by
  obtain ⟨y, hy, _⟩ := parse_show x
  unfold reread
  rw [hy]; rfl

theorem reread_int (i : Int) (h : i32ok i = true) : reread (.int i h) = .int i h := by
  unfold reread; rw [parse_int]; rfl

theorem reread_idem (x : IOF) : reread (reread x) = reread x := by
  obtain ⟨y, hy, _, _, h⟩ := parse_show x
  have e : reread x = y := by unfold reread; rw [hy]; rfl
  rcases h with h | h
  · have e' : reread x = x := by rw [e, h]
    rw [e', e']
  · rw [e]
    cases y with
    | int i h' => exact reread_int i h'
    | float f => simp [isInt] at h

end IOF
