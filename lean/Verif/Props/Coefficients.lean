import Verif.Float.Error
import Verif.Props.Resave
import Verif.Props.Strings
import Verif.Props.Convert
import Verif.Props.MfekPoint
import Verif.Lemmas.Text
/-!
# Which coefficients keep their value (C40), and further exact conditions (C19, C62, C77)

The matrices are made of `f64`s. A coefficient that is held as an `f32` is printed with as many digits as the `f32` needs;
if no point is among them it is read as an integer, whose `f64` need not be that of the `f32`.
-/
open Fl Fl.Text
namespace GP
namespace Spec

/-- The same value in a matrix, signs of zeros apart. -/
def SameCoefficient (x y : IOF) : Prop := y.toF64.normZero = x.toF64.normZero

/-- The same six values in a matrix. -/
def SameCoefficients (m n : Mat6) : Prop :=
  SameCoefficient m.xScale n.xScale ∧ SameCoefficient m.xyScale n.xyScale ∧ SameCoefficient m.yxScale n.yxScale ∧
  SameCoefficient m.yScale n.yScale ∧ SameCoefficient m.xOffset n.xOffset ∧ SameCoefficient m.yOffset n.yOffset

/-- Not printed as an integer other than its value: the text of the number is no 32-bit integer, or it is the value of the
number. -/
def PrintedExactly (x : IOF) : Prop := ∀ i : Int, parseI32 x.text = some i → x.toF64.toRat = i

/-- An integer, a float below `2^24`, or one beyond `2^31`. -/
def NotBetween (x : IOF) : Prop := ∀ f : F32, x = .float f → f.isFinite = true → |f.toRat| < 2 ^ 24 ∨ 2 ^ 31 < |f.toRat|

/-- For all six coefficients. -/
def AllSix (P : IOF → Prop) (m : Mat6) : Prop :=
  P m.xScale ∧ P m.xyScale ∧ P m.yxScale ∧ P m.yScale ∧ P m.xOffset ∧ P m.yOffset

end Spec
open Spec
variable {PD D : Type}

theorem normZero_eq_of_val {f : Fmt} (hp : 1 ≤ f.p) {x y : Flt f} {v : ℚ} (hx : Val x v) (hy : Val y v) : x.normZero = y.normZero := by
  refine normZero_eq_of_sval hp (Exact.of_finite hx.1) ⟨hy.1, ?_⟩
  have h := hy.2.trans hx.2.symm
  unfold Flt.toRat at h
  have hu : (2 : ℚ) ^ f.u ≠ 0 := by positivity
  rw [div_left_inj' hu] at h
  exact_mod_cast h

theorem toRat_normZero {f : Fmt} (x : Flt f) : x.normZero.toRat = x.toRat := by
  cases x with
  | nan => rfl
  | num s k h =>
    unfold Flt.normZero
    rw [toRat_num, toRat_num]
    by_cases h0 : k = 0
    · subst h0; simp [Fmt.val_zero]
    · simp [h0]

theorem isFinite_normZero {f : Fmt} (x : Flt f) : x.normZero.isFinite = x.isFinite := by
  cases x <;> rfl

/-- Reading a text that is an integer gives this integer. -/
theorem reread_of_int {f : F32} {i : Int} (h : parseI32 (showFloat f) = some i) :
    ∃ hi, (IOF.float f).reread = .int i hi := by
  have hok := IOF.parseI32_ok h
  refine ⟨hok, ?_⟩
  unfold IOF.reread IOF.parse IOF.text
  simp [h, hok]

theorem reread_of_float {f : F32} (h : parseI32 (showFloat f) = none) : (IOF.float f).reread = .float f := by
  unfold IOF.reread IOF.parse IOF.text
  simp [h, parseFloat_showFloat b32_p f]

theorem i32_val64 {i : Int} (h : i32ok i = true) : Val (Flt.ofInt b64 i) i := by
  have := (IOF.i32ok_iff i).1 h
  exact val_int64 (by omega)

/-- A number keeps its value exactly if its text is not an integer other than its value. -/
theorem sameCoefficient_iff (x : IOF) : SameCoefficient x x.reread ↔ PrintedExactly x := by
  unfold SameCoefficient PrintedExactly
  cases x with
  | int i h =>
    rw [IOF.reread_int]
    refine ⟨fun _ j hj => ?_, fun _ => rfl⟩
    have e : parseI32 (showInt i) = some i := by
      have := (IOF.i32ok_iff i).1 h
      exact parseI32_showInt this.1 this.2
    have hij : i = j := by
      have : parseI32 (showInt i) = some j := hj
      rw [e] at this
      exact Option.some.inj this
    subst hij
    exact (i32_val64 h).2
  | float f =>
    cases hp : parseI32 (showFloat f) with
    | none =>
      rw [reread_of_float hp]
      refine ⟨fun _ i hi => ?_, fun _ => rfl⟩
      have : parseI32 (showFloat f) = some i := hi
      rw [hp] at this
      cases this
    | some i =>
      obtain ⟨hi, e⟩ := reread_of_int hp
      have hv := i32_val64 hi
      have hfin : f.isFinite = true := by
        obtain ⟨x, hx1, hx2⟩ := parseI32_float b32_p (by decide) hp
        rw [parseFloat_showFloat b32_p f] at hx1
        cases hx1
        rw [← isFinite_normZero, ← hx2]
        have := (IOF.i32ok_iff i).1 hi
        refine (ofFrac_rounded b32_p2 (by decide) (decide (i < 0)) (n := i.natAbs) (d := 1) (by decide) ?_).1
        refine le_trans ?_ b32_largest
        have : (i.natAbs : ℚ) ≤ (2 ^ 31 : ℕ) := by exact_mod_cast (show i.natAbs ≤ 2 ^ 31 by omega)
        rw [Nat.cast_one, div_one]
        exact this.trans (by norm_num)
      have h64 := to64_val hfin
      rw [e]
      constructor
      · intro h j hj
        have hij : i = j := by
          have : parseI32 (showFloat f) = some j := hj
          rw [hp] at this
          exact Option.some.inj this
        subst hij
        have := congrArg Flt.toRat h
        rw [toRat_normZero, toRat_normZero] at this
        rw [← this]
        exact hv.2
      · intro h
        refine normZero_eq_of_val b64_p (v := (i : ℚ)) hv ⟨h64.1, h i hp⟩

theorem val_le_of_le {j k : Nat} (h : j ≤ k) : b32.val j ≤ b32.val k := by
  rcases Nat.lt_or_eq_of_le h with h | h
  · exact Nat.le_of_lt (Fmt.val_strictMono b32 b32_p h)
  · rw [h]

/-- Rounding to an `f32` does not cross an `f32`. -/
theorem round_ge_of {f : Fmt} (hp : 2 ≤ f.p) {n d k : Nat} (hd : 0 < d) (hk : k ≤ f.inf) (h : f.val k * d ≤ n * 2 ^ f.u) : k ≤ f.round n d := by
  have hn := round_nearest f hp n d hd
  apply Nat.le_of_not_lt
  intro hlt
  have hv := Fmt.val_strictMono f (by omega) hlt
  have := hn.near k hk
  unfold away at this
  have h1 : f.val (f.round n d) * d < f.val k * d := Nat.mul_lt_mul_of_pos_right hv hd
  have h2 := hn.le
  omega

/-- An integer that a float outside of the gap is rounded from is its value. -/
theorem value_of_rounds {f : F32} {i : Int} (hok : i32ok i = true) (hx2 : Flt.ofInt b32 i = f.normZero) (h : NotBetween (.float f)) :
    f.isFinite = true ∧ f.to64.toRat = i := by
  have hb := (IOF.i32ok_iff i).1 hok
  have hu : (0 : ℚ) < 2 ^ b32.u := by positivity
  have habs : |f.toRat| = (b32.val (b32.round i.natAbs 1) : ℚ) / 2 ^ b32.u := by
    rw [← toRat_normZero f, ← hx2]
    exact abs_toRat_num _ _ _
  have hle : b32.round i.natAbs 1 ≤ 158 * 2 ^ 23 := by
    apply round_le_of b32_p2 (by decide)
    rw [show b32.val (158 * 2 ^ 23) = 2 ^ 31 * 2 ^ b32.u by decide +kernel, Nat.mul_one]
    exact Nat.mul_le_mul_right _ (by omega)
  have hfin : f.isFinite = true := by
    rw [← isFinite_normZero, ← hx2]
    show decide (b32.round i.natAbs 1 < b32.inf) = true
    rw [decide_eq_true_eq]
    exact lt_of_le_of_lt hle (by decide)
  have h31 : |f.toRat| ≤ 2 ^ 31 := by
    rw [habs, div_le_iff₀ hu]
    have := val_le_of_le hle
    rw [show b32.val (158 * 2 ^ 23) = 2 ^ 31 * 2 ^ b32.u by decide +kernel] at this
    exact_mod_cast this
  rcases h f rfl hfin with h' | h'
  · have h64 := to64_val hfin
    have hsmall : i.natAbs ≤ 16777216 := by
      apply Nat.le_of_not_lt
      intro hlt
      have hge : 151 * 2 ^ 23 ≤ b32.round i.natAbs 1 := by
        apply round_ge_of b32_p2 (by decide) (by decide)
        rw [show b32.val (151 * 2 ^ 23) = 2 ^ 24 * 2 ^ b32.u by decide +kernel, Nat.mul_one]
        exact Nat.mul_le_mul_right _ (by omega)
      have := val_le_of_le hge
      rw [show b32.val (151 * 2 ^ 23) = 2 ^ 24 * 2 ^ b32.u by decide +kernel] at this
      rw [habs, div_lt_iff₀ hu] at h'
      have hq : ((2 ^ 24 * 2 ^ b32.u : ℕ) : ℚ) ≤ b32.val (b32.round i.natAbs 1) := by exact_mod_cast this
      push_cast at hq
      linarith
    refine ⟨hfin, h64.2.trans ?_⟩
    rw [← toRat_normZero f, ← hx2]
    exact (val_int32 hsmall).2
  · exact absurd h31 (by linarith)

theorem printedExactly_of (x : IOF) (h : NotBetween x) : PrintedExactly x := by
  intro i hi
  cases x with
  | int j hj =>
    have e : parseI32 (showInt j) = some j := by
      have := (IOF.i32ok_iff j).1 hj
      exact parseI32_showInt this.1 this.2
    have : parseI32 (showInt j) = some i := hi
    rw [e] at this
    cases this
    exact (i32_val64 hj).2
  | float f =>
    have hp : parseI32 (showFloat f) = some i := hi
    have hok := IOF.parseI32_ok hp
    obtain ⟨y, hx1, hx2⟩ := parseI32_float b32_p (by decide) hp
    rw [parseFloat_showFloat b32_p f] at hx1
    cases hx1
    exact (value_of_rounds hok hx2 h).2

/-- **C40**, the coefficients of a component: the six values of its matrix come back exactly if the text of none of them is an
integer other than its value. -/
theorem C40_exact (c : GlifComponent) : ∃ d, readComponent (componentXml c) = .ok d ∧
    (SameCoefficients c.m d.m ↔ AllSix PrintedExactly c.m) := by
  refine ⟨_, readComponent_written c, ?_⟩
  unfold SameCoefficients AllSix
  rw [← sameCoefficient_iff, ← sameCoefficient_iff, ← sameCoefficient_iff, ← sameCoefficient_iff, ← sameCoefficient_iff,
    ← sameCoefficient_iff]
  rfl

/-- **C40**, of images: the colour is lost, and it alone, if the texts of the coefficients are exact. -/
theorem C40_image_exact (i : GlifImage) : ∃ j, readImage (imageXml i) = .ok j ∧
    (SameCoefficients i.m j.m ↔ AllSix PrintedExactly i.m) ∧ (j.color = i.color ↔ i.color = none) := by
  refine ⟨_, readImage_written i, ?_, ?_⟩
  · unfold SameCoefficients AllSix
    rw [← sameCoefficient_iff, ← sameCoefficient_iff, ← sameCoefficient_iff, ← sameCoefficient_iff, ← sameCoefficient_iff,
      ← sameCoefficient_iff]
    rfl
  · exact eq_comm

/-- **C40.** In the sizes of fonts the matrix comes back: what is lost are floats between `2^24` and `2^31`. -/
theorem C40_fonts (m : Mat6) (h : AllSix NotBetween m) : AllSix PrintedExactly m :=
  ⟨printedExactly_of _ h.1, printedExactly_of _ h.2.1, printedExactly_of _ h.2.2.1, printedExactly_of _ h.2.2.2.1,
    printedExactly_of _ h.2.2.2.2.1, printedExactly_of _ h.2.2.2.2.2⟩

/-- Half a unit is such a coefficient, and so is a whole number held as a float. -/
example : AllSix NotBetween { GlifComponent.new.m with xScale := .float (Flt.ofFrac b32 false 1 2), xOffset := .float (Flt.ofInt b32 16777215) } := by
  have hf : ∀ (y g : F32) (q : ℚ), Val y q → |q| < 2 ^ 24 → (IOF.float y) = .float g → |g.toRat| < 2 ^ 24 := by
    intro y g q hy hq e
    cases e
    rw [hy.2]
    exact hq
  refine ⟨?_, ?_, ?_, ?_, ?_, ?_⟩
  · exact fun g e _ => .inl (hf _ g (1 / 2) ⟨by decide +kernel, by
      rw [show (Flt.ofFrac b32 false 1 2) = .num false (126 * 2 ^ 23) (by decide) by decide +kernel, toRat_num,
        show b32.val (126 * 2 ^ 23) = 2 ^ 148 by decide +kernel, show b32.u = 149 from rfl]
      norm_num⟩ (by norm_num [abs_of_pos]) e)
  · rintro g ⟨⟩
  · rintro g ⟨⟩
  · exact fun g e _ => .inl (hf _ g _ (val_int32 (i := 1) (by decide)) (by norm_num [abs_of_pos]) e)
  · exact fun g e _ => .inl (hf _ g _ (val_int32 (i := 16777215) (by decide)) (by norm_num [abs_of_pos]) e)
  · rintro g ⟨⟩

/-! ## C62, C77 -/

/-- **C62.** `has_handle` is right exactly for the handles A and B, and for all of them at quadratic points. -/
theorem C62_exact (q : MPoint PD) (wh : WhichHandle) :
    q.hasHandle wh = (q.getHandle wh).isSome ↔ wh ≠ .neither ∨ ∃ p, q = .quad p := by
  cases q <;> cases wh <;> simp [MPoint.hasHandle, MPoint.getHandle]

/-- **C77.** Exactly the guidelines that differ in nothing but the identifier, or in integers held as floats of the same
value, have the same property list. -/
theorem C77_exact (g g' : Guideline) : g.asPlistDict = g'.asPlistDict ↔
    g.x = g'.x ∧ g.y = g'.y ∧ g.angle.toF64 = g'.angle.toF64 ∧ g.name = g'.name ∧
      g.color.map (fun c => (c.r.toF64, c.g.toF64, c.b.toF64, c.a.toF64)) = g'.color.map fun c => (c.r.toF64, c.g.toF64, c.b.toF64, c.a.toF64) := by
  constructor
  · intro h
    obtain ⟨h1, h2, -, h4, -⟩ := C77_determines g g' h
    refine ⟨h1, h2, ?_, h4, ?_⟩
    · have h3 := (C77_plist g).2.2.1
      rw [h, (C77_plist g').2.2.1] at h3
      simpa using h3.symm
    · have h5 := (C77_plist g).2.2.2.2.1
      rw [h, (C77_plist g').2.2.2.2.1] at h5
      cases hc : g.color <;> cases hc' : g'.color <;> simp [hc, hc', Color.asPlist] at h5 ⊢
      obtain ⟨e1, e2, e3, e4⟩ := h5
      exact ⟨e1.symm, e2.symm, e3.symm, e4.symm⟩
  · rintro ⟨h1, h2, h3, h4, h5⟩
    have h6 : g.color.map Color.asPlist = g'.color.map Color.asPlist := by
      cases hc : g.color <;> cases hc' : g'.color <;> simp [hc, hc', Color.asPlist] at h5 ⊢
      exact h5
    unfold Guideline.asPlistDict
    rw [h1, h2, h3, h4]
    congr 1
    cases hc : g.color <;> cases hc' : g'.color <;> simp [hc, hc'] at h6 ⊢
    exact h6

/-! ## C19 -/

namespace Spec

/-- A name with a slash in it only after another one, at the start, or after a single dot there. -/
inductive OneName : Str → Prop
  | name (n : Str) (h : '/' ∉ n) : OneName n
  | slash {s : Str} (h : OneName s) : OneName ('/' :: s)
  | dot {s : Str} (h : OneName s) : OneName ('.' :: '/' :: s)

/-- A base that leads nowhere else: not from the root, and no directory is in it. -/
def LeadsNowhere (base : Str) : Prop := OneName base ∧ base.head? ≠ some '/'

end Spec

theorem oneName_split {a r : Str} (ha : '/' ∉ a) : OneName (a ++ '/' :: r) ↔ (a = [] ∨ a = ['.']) ∧ OneName r := by
  constructor
  · intro h
    generalize e : a ++ '/' :: r = t at h
    cases h with
    | name n hn => exact absurd (show '/' ∈ t by rw [← e]; simp) hn
    | @slash s h =>
      cases a with
      | nil => simp at e; exact ⟨.inl rfl, e ▸ h⟩
      | cons c a => simp at e; exact absurd (by rw [e.1]; simp) ha
    | @dot s h =>
      cases a with
      | nil => simp at e
      | cons c a =>
        simp at e
        cases a with
        | nil => simp at e; exact ⟨.inr (by rw [e.1]), e.2 ▸ h⟩
        | cons d a => simp at e; exact absurd (by rw [e.2.1]; simp) ha
  · rintro ⟨rfl | rfl, h⟩
    · exact .slash h
    · exact .dot h

/-- The parts of the file name that belongs to a base. -/
theorem fileParts_one (base : Str) : (Path.ofStr (nameToFilename base true)).parts ≠ [] ∧
    ((Path.ofStr (nameToFilename base true)).parts.length = 1 ↔ OneName base) := by
  induction hn : base.length using Nat.strong_induction_on generalizing base with
  | _ n ih =>
    obtain ⟨a, l, -, ha, hs⟩ := splitOn_cons (sep := '/') base
    rcases hs with ⟨-, rfl⟩ | ⟨r, rfl, -⟩
    · rw [ofStr_filename ha]
      exact ⟨by simp, by simp only [List.length_singleton, true_iff]; exact .name _ ha⟩
    · obtain ⟨h1, h2⟩ := ih r.length (by rw [← hn]; simp; omega) r rfl
      rw [oneName_split ha, ← h2]
      have he : '/' ∉ a.flatMap enc := by
        intro hm
        have := slash_enc ha
        rw [nameToFilename_eq] at this
        exact this (List.mem_append_left _ hm)
      have e : nameToFilename (a ++ '/' :: r) true = a.flatMap enc ++ '/' :: nameToFilename r true := by
        rw [nameToFilename_eq, nameToFilename_eq, List.flatMap_append, List.flatMap_cons, show enc '/' = ['/'] by decide]
        simp
      have hk : (!(a.flatMap enc).isEmpty && a.flatMap enc != ['.']) = false ↔ a = [] ∨ a = ['.'] := by
        cases a with
        | nil => simp
        | cons c a =>
          by_cases hu : underscored c = true
          · have : c ≠ '.' := by rintro rfl; exact absurd hu (by decide)
            simp [enc, hu, this]
          · cases a with
            | nil => simp [enc, hu]
            | cons d a => by_cases hd : underscored d = true <;> simp [enc, hu, hd]
      have hp : (Path.ofStr (nameToFilename (a ++ '/' :: r) true)).parts =
          (if (!(a.flatMap enc).isEmpty && a.flatMap enc != ['.']) then [a.flatMap enc] else []) ++
            (Path.ofStr (nameToFilename r true)).parts := by
        unfold Path.ofStr
        rw [e, splitOn_append he, List.filter_cons]
        split <;> simp
      rw [hp]
      have hpos := List.length_pos_iff.2 h1
      refine ⟨by simp [h1], ?_⟩
      rw [List.length_append]
      by_cases hc : (!(a.flatMap enc).isEmpty && a.flatMap enc != ['.']) = true
      · rw [if_pos hc]
        have := mt hk.2 (by rw [hc]; simp)
        simp only [this, false_and, iff_false, List.length_singleton]
        omega
      · rw [if_neg hc]
        have := hk.1 (by simpa using hc)
        simp [this]

/-- **C19.** The components with exactly these bases are looked up in the directory of the glyph that refers to them,
wherever it is. -/
theorem C19_exact (base : Str) : (∀ (g : Path) (n : Str), g.fileName = some n →
    ∃ m, componentFile g base = { g with parts := g.parts.dropLast ++ [m] }) ↔ LeadsNowhere base := by
  have habs : (Path.ofStr (nameToFilename base true)).abs = (base.head? == some '/') := by
    unfold Path.ofStr
    rw [nameToFilename_eq]
    cases base with
    | nil => decide
    | cons c s => by_cases hu : underscored c = true <;> simp [enc, hu]
  have hfile : ∀ (g : Path) (n : Str), g.fileName = some n → componentFile g base =
      ({ g with parts := g.parts.dropLast } : Path).push (Path.ofStr (nameToFilename base true)) := by
    intro g n hg
    unfold componentFile Path.setFileName
    rw [hg]
    rfl
  obtain ⟨-, h1⟩ := fileParts_one base
  constructor
  · intro h
    obtain ⟨m, hm⟩ := h { parts := [['a']] } ['a'] (by decide)
    rw [hfile _ ['a'] (by decide)] at hm
    unfold Path.push at hm
    split at hm
    · next ha =>
      rw [hm] at ha
      exact absurd ha (by simp)
    · next ha =>
      refine ⟨h1.1 ?_, fun hh => ha (by rw [habs, hh]; rfl)⟩
      have := congrArg (fun p => p.parts.length) hm
      simpa using this
  · rintro ⟨ho, hh⟩ g n hg
    obtain ⟨m, hm⟩ := List.length_eq_one_iff.1 (h1.2 ho)
    refine ⟨m, ?_⟩
    rw [hfile g n hg]
    unfold Path.push
    rw [habs, if_neg (by simpa using hh), hm]

/-- Such bases are `A`, and also `./A`; `.//A` leads nowhere else either, but `/A` and `a/A` do. -/
example : LeadsNowhere "A".toList ∧ LeadsNowhere ".//A".toList ∧ ¬ LeadsNowhere "/A".toList ∧ ¬ LeadsNowhere "a/A".toList := by
  refine ⟨⟨.name _ (by decide), by decide⟩, ⟨.dot (.slash (.name ['A'] (by decide))), by decide⟩, fun h => h.2 (by decide), fun h => ?_⟩
  have := (oneName_split (a := ['a']) (r := ['A']) (by decide)).1 h.1
  exact absurd this.1 (by decide)

end GP
