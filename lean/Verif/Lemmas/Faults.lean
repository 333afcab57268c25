import Verif.Lemmas.FileRead
import Verif.Props.File
import Verif.Spec.Faults
/-!
# The first error of the reader
-/
open Fl Fl.Text
namespace GP
variable {PD D : Type}
open Spec

/-- Success without a fault, or the first fault. -/
def Runs {α : Type} (r : R α) (l : List (Check × Element)) : Prop :=
  ((∃ a, r = .ok a) ∧ ¬ ∃ x, FirstFault l x) ∨ ∃ x, r = .err x ∧ FirstFault l x

theorem fails_unique {c : Check} {e : Element} {x y : GErr} (h : c.Fails e x) (k : c.Fails e y) : x = y := by
  rcases h with ⟨h1, h2⟩ | ⟨s, h1, -, h2⟩ <;> rcases k with ⟨k1, k2⟩ | ⟨t, k1, -, k2⟩
  · rw [h2] at k2; exact Option.some.inj k2
  · rw [h1] at k1; cases k1
  · rw [h1] at k1; cases k1
  · rw [h2, k2]

theorem firstFault_unique {l : List (Check × Element)} {x y : GErr} (h : FirstFault l x) (k : FirstFault l y) : x = y := by
  induction l with
  | nil => exact h.elim
  | cons p l ih =>
    rcases h with h | ⟨hn, h⟩ <;> rcases k with k | ⟨kn, k⟩
    · exact fails_unique h k
    · exact absurd ⟨_, h⟩ kn
    · exact absurd ⟨_, k⟩ hn
    · exact ih h k

theorem firstFault_append (l k : List (Check × Element)) (x : GErr) :
    FirstFault (l ++ k) x ↔ FirstFault l x ∨ ((¬ ∃ y, FirstFault l y) ∧ FirstFault k x) := by
  induction l with
  | nil => simp [FirstFault]
  | cons p l ih =>
    obtain ⟨c, e⟩ := p
    simp only [List.cons_append, FirstFault, ih]
    constructor
    · rintro (h | ⟨h, h' | ⟨h1, h2⟩⟩)
      · exact Or.inl (Or.inl h)
      · exact Or.inl (Or.inr ⟨h, h'⟩)
      · refine Or.inr ⟨?_, h2⟩
        rintro ⟨y, hy | ⟨-, hy⟩⟩
        · exact h ⟨y, hy⟩
        · exact h1 ⟨y, hy⟩
    · rintro ((h | ⟨h, h'⟩) | ⟨h1, h2⟩)
      · exact Or.inl h
      · exact Or.inr ⟨h, Or.inl h'⟩
      · have hn : ¬ ∃ y, c.Fails e y := fun ⟨y, hy⟩ => h1 ⟨y, Or.inl hy⟩
        exact Or.inr ⟨hn, Or.inr ⟨fun ⟨y, hy⟩ => h1 ⟨y, Or.inr ⟨hn, hy⟩⟩, h2⟩⟩

theorem runs_bind {α β : Type} {r : R α} {f : α → R β} {l k : List (Check × Element)} (h1 : Runs r l)
    (h2 : ∀ a, r = .ok a → Runs (f a) k) : Runs (r >>= f) (l ++ k) := by
  unfold Runs
  simp only [firstFault_append]
  rcases h1 with ⟨⟨a, e⟩, hn⟩ | ⟨x, e, hx⟩
  · rw [e, Out.bind_ok]
    rcases h2 a e with ⟨h, hk⟩ | ⟨x, h, hk⟩
    · refine Or.inl ⟨h, ?_⟩
      rintro ⟨y, hy | ⟨-, hy⟩⟩
      · exact hn ⟨y, hy⟩
      · exact hk ⟨y, hy⟩
    · exact Or.inr ⟨x, h, Or.inr ⟨hn, hk⟩⟩
  · rw [e]; exact Or.inr ⟨x, rfl, Or.inl hx⟩

theorem runs_pure {α : Type} (a : α) : Runs (.ok a : R α) [] := Or.inl ⟨⟨a, rfl⟩, by simp [FirstFault]⟩

theorem runs_bind_ok {α β : Type} {r : R α} {f : α → β} {l : List (Check × Element)} (h1 : Runs r l) :
    Runs (r >>= fun a => .ok (f a)) l := by
  have := runs_bind (f := fun a => .ok (f a)) h1 fun a _ => runs_pure (f a)
  rwa [List.append_nil] at this

theorem runs_mapM' {α β : Type} {f : α → R β} {g : α → List (Check × Element)} (h : ∀ a, Runs (f a) (g a)) (l : List α) :
    Runs (Out.mapM' f l) (l.flatMap g) := by
  induction l with
  | nil => exact runs_pure []
  | cons a l ih =>
    rw [Out.mapM'_cons, List.flatMap_cons]
    exact runs_bind (h a) fun b _ => runs_bind_ok ih

theorem runs_each {β : Type} {f : Element → R β} {cs : List Check} (h : ∀ e, Runs (f e) (each cs [e])) (l : List Element) :
    Runs (Out.mapM' f l) (each cs l) := by
  have := runs_mapM' h l
  simpa [each] using this

theorem runs_opt {β : Type} {f : Element → R β} {g : Element → List (Check × Element)} (h : ∀ e, Runs (f e) (g e))
    (o : Option Element) : Runs (readOpt f o) (o.toList.flatMap g) := by
  cases o with
  | none => exact Or.inl ⟨⟨none, rfl⟩, by simp [FirstFault]⟩
  | some e =>
    rw [Option.toList_some, List.flatMap_cons, List.flatMap_nil, List.append_nil]
    exact runs_bind_ok (h e)

theorem firstFault_one (c : Check) (e : Element) (x : GErr) : FirstFault [(c, e)] x ↔ c.Fails e x := by
  simp [FirstFault]

/-- An attribute that has to be there and to be converted. -/
theorem runs_conv {α : Type} {e : Element} {k : String} {m b : GErr} {conv : Str → Option α} {good : Str → Prop}
    (hp : ∀ s, (∃ x, conv s = some x) ↔ good s) :
    Runs (Out.ofOption m (e.get k) >>= fun s => Out.ofOption b (conv s)) [(⟨k, some m, good, b⟩, e)] := by
  unfold Runs
  simp only [firstFault_one, Check.Fails]
  cases hg : e.get k with
  | none => exact Or.inr ⟨m, rfl, Or.inl ⟨rfl, rfl⟩⟩
  | some s =>
    rw [Out.ofOption_some, Out.bind_ok]
    cases hc : conv s with
    | none => exact Or.inr ⟨b, rfl, Or.inr ⟨s, rfl, fun h => by have := (hp s).2 h; simp [hc] at this, rfl⟩⟩
    | some a =>
      refine Or.inl ⟨⟨a, rfl⟩, ?_⟩
      rintro ⟨x, ⟨h, _⟩ | ⟨t, h1, h2, _⟩⟩
      · cases h
      · cases h1; exact h2 ((hp s).1 ⟨a, hc⟩)

theorem runs_need (e : Element) (k m : String) : Runs (need e k m) [(present k m, e)] := by
  have := runs_conv (e := e) (k := k) (m := .input m) (b := .input m) (conv := some) (good := fun _ => True) (by simp)
  have h2 : (Out.ofOption (.input m) (e.get k) >>= fun s => Out.ofOption (.input m) (some s) : R Str) = need e k m := by
    unfold need; cases e.get k <;> rfl
  rwa [h2] at this

theorem runs_needIof (e : Element) (k m b : String) : Runs (needIof e k m b) [(number k m b, e)] :=
  runs_conv C79_accepted

theorem runs_needF32 (e : Element) (k m b : String) : Runs (needF32 e k m b) [(number k m b, e)] :=
  runs_conv fun s => exists_congr fun x => C79_float b32_p2 s x

/-- A check that can only fail. -/
theorem runs_maybe {α : Type} {r : R α} {e : Element} {k : String} {good : Str → Prop} {b : GErr}
    (h1 : (∀ s, e.get k = some s → good s) → ∃ a, r = .ok a) (h2 : ∀ s, e.get k = some s → ¬ good s → r = .err b) :
    Runs r [(maybe k good b, e)] := by
  unfold Runs
  simp only [firstFault_one, Check.Fails, maybe]
  by_cases h : ∀ s, e.get k = some s → good s
  · refine Or.inl ⟨h1 h, ?_⟩
    rintro ⟨x, ⟨_, hh⟩ | ⟨t, h3, h4, _⟩⟩
    · cases hh
    · exact h4 (h t h3)
  · simp only [not_forall] at h
    obtain ⟨s, hs, hb⟩ := h
    exact Or.inr ⟨b, h2 s hs hb, Or.inr ⟨s, hs, hb, rfl⟩⟩

theorem runs_optIof (e : Element) (k : String) (d : IOF) :
    Runs (optIof e k d) [(maybe k IsNumber (.input ("Matrix member " ++ k ++ " not float")), e)] := by
  unfold optIof
  refine runs_maybe (fun h => ?_) fun s hs hb => ?_
  · cases hg : e.get k with
    | none => exact ⟨d, rfl⟩
    | some s =>
      obtain ⟨x, hx⟩ := (C79_accepted s).2 (h s hg)
      exact ⟨x, by simp [hx]⟩
  · rw [hs]
    cases hc : IOF.parse s with
    | none => simp [hc]
    | some x => exact absurd ((C79_accepted s).1 ⟨x, hc⟩) hb

theorem runs_loadMatrix (e : Element) (m : Mat6) : Runs (loadMatrix e m) (each matrixChecks [e]) := by
  unfold loadMatrix
  have : each matrixChecks [e] = [(maybe "xScale" IsNumber (.input ("Matrix member " ++ "xScale" ++ " not float")), e)] ++
    ([(maybe "xyScale" IsNumber (.input ("Matrix member " ++ "xyScale" ++ " not float")), e)] ++
    ([(maybe "yxScale" IsNumber (.input ("Matrix member " ++ "yxScale" ++ " not float")), e)] ++
    ([(maybe "yScale" IsNumber (.input ("Matrix member " ++ "yScale" ++ " not float")), e)] ++
    ([(maybe "xOffset" IsNumber (.input ("Matrix member " ++ "xOffset" ++ " not float")), e)] ++
    ([(maybe "yOffset" IsNumber (.input ("Matrix member " ++ "yOffset" ++ " not float")), e)]))))) := rfl
  rw [this]
  exact runs_bind (runs_optIof e "xScale" _) fun _ _ => runs_bind (runs_optIof e "xyScale" _) fun _ _ =>
    runs_bind (runs_optIof e "yxScale" _) fun _ _ => runs_bind (runs_optIof e "yScale" _) fun _ _ =>
    runs_bind (runs_optIof e "xOffset" _) fun _ _ => runs_bind_ok (runs_optIof e "yOffset" _)

theorem runs_optColor (e : Element) : Runs (optColor e) [(colorCheck, e)] := by
  refine runs_maybe (fun h => ?_) fun s hs hb => ?_
  · exact decides_ok (decides_optColor e) h
  · rcases decides_optColor e with ⟨h, _⟩ | ⟨_, x, h⟩
    · exact absurd (h s hs) hb
    · unfold optColor at h ⊢
      simp only [hs] at h ⊢
      rcases C14_error s with ⟨c, hc⟩ | hc
      · rw [hc] at h; cases h
      · rw [hc]; rfl

theorem firstFault_two {k : String} {m : Option GErr} {b₁ b₂ : GErr} {g₁ g₂ : Str → Prop} {e : Element} {w : Str}
    (hg : e.get k = some w) (x : GErr) :
    FirstFault [(⟨k, m, g₁, b₁⟩, e), (maybe k g₂ b₂, e)] x ↔ (¬ g₁ w ∧ x = b₁) ∨ (g₁ w ∧ ¬ g₂ w ∧ x = b₂) := by
  simp only [FirstFault, Check.Fails, maybe, hg]
  by_cases h1 : g₁ w <;> by_cases h2 : g₂ w <;> simp [h1, h2]

theorem runs_readAdvance (ped : Pedantry) (e : Element) : Runs (readAdvance ped e) (each (advanceChecks ped) [e]) := by
  unfold readAdvance need
  cases hg : e.get "width" with
  | none =>
    exact Or.inr ⟨_, rfl, Or.inl (Or.inl ⟨hg, rfl⟩)⟩
  | some w =>
    rw [Out.ofOption_some, Out.bind_ok]
    have hU : ∀ n, parseU64 w = some n ↔ Signed 10 w n ∧ n < 2 ^ 64 := fun n => parseUnsigned_iff (by decide) _ _ _
    have hF : ∀ f, parseFloat b32 w = some f ↔ FloatText b32 w f := C79_float b32_p2 w
    have key := fun x => firstFault_two (m := some (.input "<advance> has no width"))
      (g₁ := fun w => (∃ n, Signed 10 w n ∧ n < 2 ^ 64) ∨ ∃ f : F32, FloatText b32 w f ∧ f.isSubnormal = false)
      (b₁ := .input "<advance> width neither int nor downgradable (not subnormal) float!")
      (g₂ := fun w => ¬ Strictest ped ∨ ∃ n, Signed 10 w n ∧ n < 2 ^ 64)
      (b₂ := .input "Floating point value given as <advance> width — OpenType `hmtx` / `vmtx` will truncate it") hg x
    generalize hl : [(_, e), (maybe "width" _ _, e)] = l at key
    have hl' : each (advanceChecks ped) [e] = l := hl
    rw [hl']
    simp only [← hU, ← hF, ← shouldMend_iff] at key
    unfold Runs
    simp only [key]
    unfold readWidth
    cases h1 : parseU64 w with
    | some n => exact Or.inl ⟨⟨n, rfl⟩, by simp⟩
    | none =>
      cases h2 : parseFloat b32 w with
      | none => exact Or.inr ⟨_, rfl, Or.inl ⟨by simp, rfl⟩⟩
      | some f =>
        simp only []
        by_cases hs : f.isSubnormal = true
        · rw [if_pos hs]
          refine Or.inr ⟨_, rfl, Or.inl ⟨?_, rfl⟩⟩
          rintro (⟨n, h⟩ | ⟨g, h, h'⟩)
          · cases h
          · cases h; rw [hs] at h'; cases h'
        · rw [if_neg hs]
          have hs' : f.isSubnormal = false := by simpa using hs
          cases hm : ped.shouldMend with
          | true => exact Or.inl ⟨⟨f.toU64, rfl⟩, fun ⟨x, h⟩ => h.elim (fun h => h.1 (Or.inr ⟨f, rfl, hs'⟩)) fun h => h.2.1 (Or.inl rfl)⟩
          | false => exact Or.inr ⟨_, rfl, Or.inr ⟨Or.inr ⟨f, rfl, hs'⟩, by simp, rfl⟩⟩

theorem runs_readUnicode (e : Element) : Runs (readUnicode e) (each unicodeChecks [e]) := by
  have h1 : readUnicode e = (Out.ofOption (.input "<unicode> has no hex") (e.get "hex") >>= fun s =>
      Out.ofOption (.input "<unicode> hex not int") (parseUnsigned 16 (2 ^ 32) s)) >>= fun n =>
      Out.ofOption (.input "<unicode> char conversion failed") (charFromU32 n) := by
    unfold readUnicode need readCodepoint
    cases e.get "hex" <;> rfl
  rw [h1]
  refine runs_bind (l := [(_, e)]) (runs_conv fun s => ?_) fun n hn => ?_
  · exact exists_congr fun n => parseUnsigned_iff (by decide) _ _ _
  · cases hg : e.get "hex" with
    | none => rw [hg] at hn; cases hn
    | some s =>
      rw [hg, Out.ofOption_some, Out.bind_ok] at hn
      cases hp : parseUnsigned 16 (2 ^ 32) s with
      | none => rw [hp] at hn; cases hn
      | some m =>
        rw [hp] at hn; cases hn
        have hc : (∃ c : Char, Signed 16 s c.toNat) ↔ ∃ c, charFromU32 n = some c := by
          refine exists_congr fun c => ?_
          rw [charFromU32_iff]
          constructor
          · intro h
            have := (parseUnsigned_iff (by decide) (2 ^ 32) s c.toNat).2 ⟨h, char_lt c⟩
            rw [hp] at this; exact (Option.some.inj this).symm
          · rintro h
            rw [h]; exact ((parseUnsigned_iff (by decide) _ _ _).1 hp).1
        refine runs_maybe (fun h => ?_) fun t ht hb => ?_
        · obtain ⟨c, h⟩ := hc.1 (h s hg)
          exact ⟨c, by rw [h]; rfl⟩
        · rw [hg] at ht; cases ht
          rw [hc] at hb
          cases h : charFromU32 n with
          | none => rfl
          | some c => exact absurd ⟨c, h⟩ hb

theorem integer_of_parse {s : Str} {x : IOF} (h : IOF.parse s = some x) : Integer32 s ↔ ∃ i h, x = .int i h := by
  constructor
  · rintro ⟨i, e2, e3⟩
    have := (C79_number _ _).2 (Or.inl ⟨i, (IOF.i32ok_iff i).2 e3, rfl, e2⟩)
    rw [h] at this; cases this
    exact ⟨i, _, rfl⟩
  · rintro ⟨i, hi, rfl⟩
    rcases (C79_number _ _).1 h with ⟨j, hj, e, ht⟩ | ⟨-, x, e, -⟩
    · cases e
      exact ⟨i, ht, (IOF.i32ok_iff i).1 hi⟩
    · cases e

theorem runs_readAnchor (ped : Pedantry) (e : Element) : Runs (readAnchor ped e) (each (anchorChecks ped) [e]) := by
  unfold readAnchor
  refine runs_bind (l := [(_, e)]) (runs_needIof ..) fun x hx => runs_bind (l := [(_, e)]) (runs_needIof ..) fun y hy => ?_
  obtain ⟨sx, hx1, hx2⟩ := needIof_ok hx
  obtain ⟨sy, hy1, hy2⟩ := needIof_ok hy
  have hA := C42_accepted_iff { x := x, y := y, cls := anchorClass (e.get "name") } ped
  simp only [← integer_of_parse hx2, ← integer_of_parse hy2] at hA
  have key : ∀ z, FirstFault [(maybe "x" (fun s => ped.mend = .always ∨ Integer32 s) GErr.pedanticXmlParse, e),
      (maybe "y" (fun s => ped.mend = .always ∨ Integer32 s) GErr.pedanticXmlParse, e)] z ↔
      ¬ (ped.mend = .always ∨ (Integer32 sx ∧ Integer32 sy)) ∧ z = .pedanticXmlParse := by
    intro z
    simp only [FirstFault, Check.Fails, maybe, hx1, hy1]
    simp
    by_cases h0 : ped.mend = .always <;> by_cases h1 : Integer32 sx <;> by_cases h2 : Integer32 sy <;>
      simp [h0, h1, h2]
  unfold Runs
  show _ ∧ (¬ ∃ z, FirstFault [(maybe "x" _ _, e), (maybe "y" _ _, e)] z) ∨
    ∃ z, _ ∧ FirstFault [(maybe "x" _ _, e), (maybe "y" _ _, e)] z
  simp only [key]
  by_cases hp : ∃ a, Anchor.fromGlif { x := x, y := y, cls := anchorClass (e.get "name") } ped = .ok a
  · exact Or.inl ⟨hp, fun ⟨_, h, _⟩ => h (hA.1.1 hp)⟩
  · exact Or.inr ⟨_, hA.2 hp, fun h => hp (hA.1.2 h), rfl⟩

theorem each_one (cs ds : List Check) (e : Element) : each (cs ++ ds) [e] = each cs [e] ++ each ds [e] := by
  simp [each]

theorem runs_readImage (e : Element) : Runs (readImage e) (each imageChecks [e]) := by
  have : each imageChecks [e] = [(present "fileName" "<image> missing fileName", e)] ++
      (each matrixChecks [e] ++ [(colorCheck, e)]) := rfl
  rw [this]
  exact runs_bind (runs_need ..) fun _ _ => runs_bind (runs_loadMatrix ..) fun _ _ => runs_bind_ok (runs_optColor e)

theorem runs_readGuideline (e : Element) : Runs (readGuideline e) (each guidelineChecks [e]) := by
  have : each guidelineChecks [e] = [(number "x" "<guideline> missing x" "<guideline> x not float", e)] ++
      ([(number "y" "<guideline> missing y" "<guideline> x not float", e)] ++
      ([(number "angle" "<guideline> missing angle" "<guideline> angle not float", e)] ++ [(colorCheck, e)])) := rfl
  rw [this]
  exact runs_bind (runs_needF32 ..) fun _ _ => runs_bind (runs_needF32 ..) fun _ _ =>
    runs_bind (runs_needIof ..) fun _ _ => runs_bind_ok (runs_optColor e)

theorem runs_readPoint (e : Element) : Runs (readPoint e) (each pointChecks [e]) := by
  refine runs_bind (l := [(_, e)]) (k := [(_, e)]) (runs_needIof ..) fun _ _ =>
    runs_bind (l := [(_, e)]) (k := []) (runs_needIof ..) fun _ _ => ?_
  simp only [parse_isValid, if_true]
  exact runs_pure _

theorem runs_readContour (e : Element) : Runs (readContour e) (each pointChecks (named "point" e.children)) := by
  rw [readContour_eq]
  exact runs_each runs_readPoint _

theorem runs_readComponent (e : Element) : Runs (readComponent e) (each componentChecks [e]) := by
  rw [componentChecks, each_one]
  exact runs_bind (runs_loadMatrix ..) fun _ _ => runs_bind_ok (runs_need e "base" _)

theorem runs_readOutline (o : Element) :
    Runs (readOutline o) (each pointChecks ((named "contour" o.children).flatMap fun c => named "point" c.children) ++
      each componentChecks (named "component" o.children)) := by
  rw [readOutline_eq]
  refine runs_bind ?_ fun _ _ => runs_bind_ok (runs_each runs_readComponent _)
  have := runs_mapM' runs_readContour (named "contour" o.children)
  have h2 : ((named "contour" o.children).flatMap fun c => each pointChecks (named "point" c.children)) =
      each pointChecks ((named "contour" o.children).flatMap fun c => named "point" c.children) := by
    simp [each, List.flatMap_assoc]
  rwa [h2] at this

theorem runs_readPre (ped : Pedantry) (root : Element) (h : root.name = "glyph") :
    Runs (readPre ped root.name root.get (fun n => named n root.children)) (requirements ped root) := by
  have hout : Runs (readOpt readOutline (named "outline" root.children).head?)
      (each pointChecks ((contoursOf root).flatMap fun c => named "point" c.children) ++
        each componentChecks (componentsOf root)) := by
    have := runs_opt runs_readOutline (named "outline" root.children).head?
    unfold contoursOf componentsOf
    cases ho : (named "outline" root.children).head? with
    | none => rw [ho] at this; exact this
    | some o => rw [ho] at this; simpa using this
  have hadv : Runs (readOpt (readAdvance ped) (named "advance" root.children).head?)
      (each (advanceChecks ped) (named "advance" root.children).head?.toList) := by
    have := runs_opt (runs_readAdvance ped) (named "advance" root.children).head?
    simpa [each] using this
  unfold readPre requirements
  rw [if_neg (by simp [h])]
  simp only [List.append_assoc]
  have hroot : each rootChecks [root] = [(⟨"format", some (.input "no format in <glyph>"), (· = "2".toList), .input "<glyph> format not 2"⟩, root)] ++
    [(present "name" "<glyph> has no name", root)] := rfl
  rw [hroot, List.append_assoc]
  have hrest := runs_bind (runs_need root "name" "<glyph> has no name") fun name _ =>
    runs_bind hadv fun width _ => runs_bind (runs_each runs_readUnicode (named "unicode" root.children)) fun unicode _ =>
    runs_bind (runs_each (runs_readAnchor ped) (named "anchor" root.children)) fun anchors _ =>
    runs_bind (runs_each runs_readImage (named "image" root.children)) fun images _ =>
    runs_bind (runs_each runs_readGuideline (named "guideline" root.children)) fun guidelines _ =>
    runs_bind_ok (f := fun o => (Pre.mk name width unicode anchors images guidelines o)) hout
  have hfmt := runs_conv (e := root) (k := "format") (m := .input "no format in <glyph>") (b := .input "<glyph> format not 2")
    (conv := fun s => if s = "2".toList then some () else none) (good := (· = "2".toList)) (by
      intro s; by_cases hs : s = "2".toList <;> simp [hs])
  have := runs_bind hfmt fun _ _ => hrest
  cases hg : root.get "format" with
  | none => rw [hg] at this; exact this
  | some f =>
    rw [hg, Out.ofOption_some, Out.bind_ok] at this
    rw [Out.ofOption_some, Out.bind_ok]
    by_cases hf : f = "2".toList
    · rw [if_neg (by simp [hf])]
      rw [if_pos hf, Out.ofOption_some, Out.bind_ok] at this
      exact this
    · rw [if_pos hf]
      rw [if_neg hf] at this
      exact this

end GP
