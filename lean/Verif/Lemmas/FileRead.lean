import Verif.Lemmas.File
import Verif.Props.Text
import Verif.Spec.ContourIO
/-!
# When the parts of the reader succeed
-/
open Fl Fl.Text
namespace GP
variable {PD D : Type}
open Spec

/-- `x` succeeds if `P` and returns an error otherwise. -/
def Decides {α : Type} (x : R α) (P : Prop) : Prop := (P ∧ ∃ a, x = .ok a) ∨ (¬ P ∧ ∃ e, x = .err e)

theorem decides_ok {α : Type} {x : R α} {P : Prop} (h : Decides x P) (hp : P) : ∃ a, x = .ok a := by
  rcases h with ⟨_, h⟩ | ⟨h, _⟩
  · exact h
  · exact absurd hp h

theorem decides_iff {α : Type} {x : R α} {P Q : Prop} (h : Decides x P) (hpq : P ↔ Q) : Decides x Q := by
  rwa [← propext hpq]

theorem decides_bind {α β : Type} {x : R α} {f : α → R β} {P : Prop} {Q : Prop} (h1 : Decides x P)
    (h2 : ∀ a, x = .ok a → Decides (f a) Q) : Decides (x >>= f) (P ∧ Q) := by
  rcases h1 with ⟨hp, a, e⟩ | ⟨hp, er, e⟩
  · rw [e, Out.bind_ok]
    exact decides_iff (h2 a e) ⟨fun q => ⟨hp, q⟩, fun h => h.2⟩
  · rw [e]; exact Or.inr ⟨fun h => hp h.1, er, rfl⟩

theorem decides_pure {α : Type} (a : α) : Decides (.ok a : R α) True := Or.inl ⟨trivial, a, rfl⟩

theorem decides_bind_ok {α β : Type} {x : R α} {f : α → β} {P : Prop} (h1 : Decides x P) :
    Decides (x >>= fun a => .ok (f a)) P :=
  decides_iff (decides_bind h1 fun a _ => decides_pure (f a)) (by simp)

theorem decides_ofOption {α : Type} (e : GErr) (o : Option α) : Decides (Out.ofOption e o) (∃ a, o = some a) := by
  cases o with
  | none => exact Or.inr ⟨by simp, e, rfl⟩
  | some a => exact Or.inl ⟨⟨a, rfl⟩, a, rfl⟩

theorem decides_mapM' {α β : Type} {f : α → R β} {P : α → Prop} {l : List α} (h : ∀ a ∈ l, Decides (f a) (P a)) :
    Decides (Out.mapM' f l) (∀ a ∈ l, P a) := by
  induction l with
  | nil => exact Or.inl ⟨by simp, [], rfl⟩
  | cons a l ih =>
    rw [Out.mapM'_cons]
    refine decides_iff (decides_bind (h a List.mem_cons_self) fun b _ =>
      decides_bind_ok (ih fun x hx => h x (List.mem_cons_of_mem _ hx))) ?_
    simp

theorem decides_need (e : Element) (k tag : String) : Decides (need e k tag) (∃ s, e.get k = some s) :=
  decides_ofOption _ _

theorem need_ok {e : Element} {k tag : String} {s : Str} (h : need e k tag = .ok s) : e.get k = some s := by
  unfold need at h
  cases hg : e.get k with
  | none => rw [hg] at h; cases h
  | some s' => rw [hg] at h; cases h; rfl

theorem decides_number {α : Type} {e : Element} {k m : String} {parse : Str → Option α} {er : GErr}
    (hp : ∀ s, (∃ x, parse s = some x) ↔ IsNumber s) :
    Decides (need e k m >>= fun s => Out.ofOption er (parse s)) (HasNumber e k) := by
  refine decides_iff (P := (∃ s, e.get k = some s) ∧ HasNumber e k) (decides_bind (decides_need e k m) fun s hs => ?_)
    ⟨fun h => h.2, fun h => ⟨⟨_, h.choose_spec.1⟩, h⟩⟩
  have := need_ok hs
  refine decides_iff (decides_ofOption _ _) ⟨fun hx => ⟨s, this, (hp s).1 hx⟩, fun ⟨s', h1, h2⟩ => ?_⟩
  rw [this] at h1; cases h1; exact (hp s).2 h2

theorem decides_needIof (e : Element) (k m b : String) : Decides (needIof e k m b) (HasNumber e k) :=
  decides_number C79_accepted

theorem needIof_ok {e : Element} {k m b : String} {x : IOF} (h : needIof e k m b = .ok x) :
    ∃ s, e.get k = some s ∧ IOF.parse s = some x := by
  unfold needIof at h
  cases hg : need e k m with
  | ok s =>
    rw [hg, Out.bind_ok] at h
    cases hp : IOF.parse s with
    | none => rw [hp] at h; cases h
    | some y => rw [hp] at h; cases h; exact ⟨s, need_ok hg, hp⟩
  | err e' => rw [hg] at h; cases h
  | panic => rw [hg] at h; cases h

theorem decides_needF32 (e : Element) (k m b : String) : Decides (needF32 e k m b) (HasNumber e k) :=
  decides_number fun s => exists_congr fun x => C79_float b32_p2 s x

theorem decides_optIof (e : Element) (k : String) (d : IOF) : Decides (optIof e k d) (MaybeNumber e k) := by
  unfold optIof MaybeNumber
  cases e.get k with
  | none => exact Or.inl ⟨by simp, d, rfl⟩
  | some s => exact decides_iff (decides_ofOption _ _) (by simp [C79_accepted])

theorem decides_loadMatrix (e : Element) (m : Mat6) : Decides (loadMatrix e m) (MatrixOk e) := by
  unfold loadMatrix
  refine decides_iff (decides_bind (decides_optIof ..) fun _ _ => decides_bind (decides_optIof ..) fun _ _ =>
    decides_bind (decides_optIof ..) fun _ _ => decides_bind (decides_optIof ..) fun _ _ =>
    decides_bind (decides_optIof ..) fun _ _ => decides_bind_ok (decides_optIof ..)) ?_
  simp [MatrixOk]

theorem decides_optColor (e : Element) : Decides (optColor e) (ColorOk e) := by
  unfold optColor ColorOk
  cases e.get "color" with
  | none => exact Or.inl ⟨by simp, none, rfl⟩
  | some s =>
    refine decides_bind_ok ?_
    rcases C14_error s with ⟨c, h⟩ | h
    · refine Or.inl ⟨?_, c, h⟩
      intro s' hs; cases hs
      obtain ⟨a, b, c', d, hf, h1, h2, h3, h4⟩ := (C14_accepts s c).1 h
      exact ⟨a, b, c', d, hf, (C79_accepted _).1 ⟨_, h1⟩, (C79_accepted _).1 ⟨_, h2⟩, (C79_accepted _).1 ⟨_, h3⟩, (C79_accepted _).1 ⟨_, h4⟩⟩
    · refine Or.inr ⟨?_, _, h⟩
      intro hh
      obtain ⟨a, b, c', d, hf, h1, h2, h3, h4⟩ := hh s rfl
      obtain ⟨x1, h1⟩ := (C79_accepted _).2 h1
      obtain ⟨x2, h2⟩ := (C79_accepted _).2 h2
      obtain ⟨x3, h3⟩ := (C79_accepted _).2 h3
      obtain ⟨x4, h4⟩ := (C79_accepted _).2 h4
      rw [(C14_accepts s ⟨x1, x2, x3, x4⟩).2 ⟨a, b, c', d, hf, h1, h2, h3, h4⟩] at h
      cases h

theorem decides_readWidth (ped : Pedantry) (w : Str) : Decides (readWidth ped w) (WidthOk ped w) := by
  cases h : readWidth ped w with
  | ok n =>
    refine Or.inl ⟨?_, n, rfl⟩
    rcases (C12_accepts ped w n).1 h with ⟨h1, h2⟩ | ⟨_, h2, f, h3, h4, _⟩
    · exact Or.inl ⟨n, h1, h2⟩
    · exact Or.inr ⟨h2, f, h3, h4⟩
  | panic => exact absurd h (C12_no_panic ped w)
  | err e =>
    refine Or.inr ⟨?_, e, rfl⟩
    intro hw
    by_cases hi : ∃ n, Signed 10 w n ∧ n < 2 ^ 64
    · obtain ⟨n, hn⟩ := hi
      rw [(C12_accepts ped w n).2 (Or.inl hn)] at h; cases h
    · rcases hw with hw | ⟨h2, f, h3, h4⟩
      · exact hi hw
      · rw [(C12_accepts ped w f.toU64).2 (Or.inr ⟨hi, h2, f, h3, h4, (toU64_spec f _).1 rfl⟩)] at h; cases h

theorem decides_readAdvance (ped : Pedantry) (e : Element) :
    Decides (readAdvance ped e) (∃ w, e.get "width" = some w ∧ WidthOk ped w) := by
  refine decides_iff (P := (∃ s, e.get "width" = some s) ∧ ∃ w, e.get "width" = some w ∧ WidthOk ped w)
    (decides_bind (decides_need ..) fun s hs => ?_) ⟨fun h => h.2, fun h => ⟨⟨_, h.choose_spec.1⟩, h⟩⟩
  have := need_ok hs
  refine decides_iff (decides_readWidth ped s) ⟨fun h => ⟨s, this, h⟩, fun ⟨w, h1, h2⟩ => ?_⟩
  rw [this] at h1; cases h1; exact h2

theorem decides_readUnicode (e : Element) :
    Decides (readUnicode e) (∃ h, e.get "hex" = some h ∧ ∃ c : Char, Signed 16 h c.toNat) := by
  refine decides_iff (P := (∃ s, e.get "hex" = some s) ∧ ∃ h, e.get "hex" = some h ∧ ∃ c : Char, Signed 16 h c.toNat)
    (decides_bind (decides_need ..) fun s hs => ?_) ⟨fun h => h.2, fun h => ⟨⟨_, h.choose_spec.1⟩, h⟩⟩
  have := need_ok hs
  refine decides_iff (P := ∃ c : Char, Signed 16 s c.toNat) ?_ ⟨fun h => ⟨s, this, h⟩, fun ⟨w, h1, h2⟩ => by
    rw [this] at h1; cases h1; exact h2⟩
  cases h : readCodepoint s with
  | ok c => exact Or.inl ⟨⟨c, (C11_accepts s c).1 h⟩, c, rfl⟩
  | panic => exact absurd h (C11_no_panic s)
  | err e' =>
    refine Or.inr ⟨?_, e', rfl⟩
    rintro ⟨c, hc⟩
    rw [(C11_accepts s c).2 hc] at h; cases h

theorem decides_readAnchor (ped : Pedantry) (e : Element) :
    Decides (readAnchor ped e) (HasNumber e "x" ∧ HasNumber e "y" ∧
      (ped.mend = .always ∨ (HasInteger e "x" ∧ HasInteger e "y"))) := by
  refine decides_bind (decides_needIof ..) fun x hx => decides_bind (decides_needIof ..) fun y hy => ?_
  obtain ⟨sx, hx1, hx2⟩ := needIof_ok hx
  obtain ⟨sy, hy1, hy2⟩ := needIof_ok hy
  have hA := C42_accepted_iff { x := x, y := y, cls := anchorClass (e.get "name") } ped
  have hq : (ped.mend = .always ∨ (HasInteger e "x" ∧ HasInteger e "y")) ↔
      (ped.mend = .always ∨ ((∃ i h, x = .int i h) ∧ ∃ i h, y = .int i h)) := by
    have a : HasInteger e "x" ↔ ∃ i h, x = .int i h := by
      constructor
      · rintro ⟨s, i, e1, e2, e3⟩
        rw [hx1] at e1; cases e1
        have := (C79_number _ _).2 (Or.inl ⟨i, (IOF.i32ok_iff i).2 e3, rfl, e2⟩)
        rw [hx2] at this; cases this
        exact ⟨i, _, rfl⟩
      · rintro ⟨i, h, rfl⟩
        rcases (C79_number _ _).1 hx2 with ⟨j, hj, e, ht⟩ | ⟨-, x, e, -⟩
        · cases e
          exact ⟨sx, i, hx1, ht, (IOF.i32ok_iff i).1 h⟩
        · cases e
    have b : HasInteger e "y" ↔ ∃ i h, y = .int i h := by
      constructor
      · rintro ⟨s, i, e1, e2, e3⟩
        rw [hy1] at e1; cases e1
        have := (C79_number _ _).2 (Or.inl ⟨i, (IOF.i32ok_iff i).2 e3, rfl, e2⟩)
        rw [hy2] at this; cases this
        exact ⟨i, _, rfl⟩
      · rintro ⟨i, h, rfl⟩
        rcases (C79_number _ _).1 hy2 with ⟨j, hj, e, ht⟩ | ⟨-, x, e, -⟩
        · cases e
          exact ⟨sy, i, hy1, ht, (IOF.i32ok_iff i).1 h⟩
        · cases e
    rw [a, b]
  rw [hq]
  by_cases hp : ∃ a, Anchor.fromGlif { x := x, y := y, cls := anchorClass (e.get "name") } ped = .ok a
  · exact Or.inl ⟨hA.1.1 hp, hp⟩
  · exact Or.inr ⟨fun hh => hp (hA.1.2 hh), _, hA.2 hp⟩

theorem decides_readImage (e : Element) :
    Decides (readImage e) ((∃ f, e.get "fileName" = some f) ∧ MatrixOk e ∧ ColorOk e) :=
  decides_bind (decides_need ..) fun _ _ => decides_bind (decides_loadMatrix ..) fun _ _ =>
    decides_bind_ok (decides_optColor ..)

theorem decides_readGuideline (e : Element) :
    Decides (readGuideline e) (HasNumber e "x" ∧ HasNumber e "y" ∧ HasNumber e "angle" ∧ ColorOk e) :=
  decides_bind (decides_needF32 ..) fun _ _ => decides_bind (decides_needF32 ..) fun _ _ =>
    decides_bind (decides_needIof ..) fun _ _ => decides_bind_ok (decides_optColor ..)

theorem decides_readComponent (e : Element) :
    Decides (readComponent e) (MatrixOk e ∧ ∃ b, e.get "base" = some b) :=
  decides_bind (decides_loadMatrix ..) fun _ _ => decides_bind_ok (decides_need ..)

theorem parse_isValid (s : Str) : (PointType.parse s).isValid = true := by
  unfold PointType.parse
  split
  · rfl
  · split
    · rfl
    · split
      · rfl
      · split <;> rfl

theorem decides_readPoint (e : Element) : Decides (readPoint e) (HasNumber e "x" ∧ HasNumber e "y") := by
  refine decides_iff (decides_bind (decides_needIof ..) fun _ _ => decides_bind (Q := True) (decides_needIof ..) fun _ _ => ?_)
    (by simp)
  simp only [parse_isValid, if_true]
  exact decides_pure _

theorem decides_readContour (e : Element) :
    Decides (readContour e) (∀ p ∈ named "point" e.children, HasNumber p "x" ∧ HasNumber p "y") := by
  rw [readContour_eq]
  exact decides_mapM' fun a _ => decides_readPoint a

theorem decides_readOutline (o : Element) :
    Decides (readOutline o)
      ((∀ c ∈ named "contour" o.children, ∀ p ∈ named "point" c.children, HasNumber p "x" ∧ HasNumber p "y") ∧
       (∀ c ∈ named "component" o.children, MatrixOk c ∧ ∃ b, c.get "base" = some b)) := by
  rw [readOutline_eq]
  exact decides_bind (decides_mapM' fun a _ => decides_readContour a) fun _ _ =>
    decides_bind_ok (decides_mapM' fun a _ => decides_readComponent a)

theorem decides_readOpt {α : Type} {f : Element → R α} {P : Element → Prop} (h : ∀ e, Decides (f e) (P e))
    (o : Option Element) : Decides (readOpt f o) (∀ e, o = some e → P e) := by
  cases o with
  | none => exact Or.inl ⟨by simp, none, rfl⟩
  | some e => exact decides_iff (decides_bind_ok (h e)) (by simp)

/-- Everything but the conversion of the contours. -/
structure Pre where
  name : Str
  width : Option Nat
  unicode : List Char
  anchors : List Anchor
  images : List GlifImage
  guidelines : List Guideline
  outline : Option (List GlifContour × List GlifComponent)

/-- The checks of the reader, in order. -/
def readPre (ped : Pedantry) (rootName : String) (get : String → Option Str) (kids : String → List Element) : R Pre := do
  if rootName ≠ "glyph" then .err (.input "Root element not <glyph>") else do
  let format ← Out.ofOption (.input "no format in <glyph>") (get "format")
  if format ≠ "2".toList then .err (.input "<glyph> format not 2") else do
  let name ← Out.ofOption (.input "<glyph> has no name") (get "name")
  let width ← readOpt (readAdvance ped) (kids "advance").head?
  let unicode ← Out.mapM' readUnicode (kids "unicode")
  let anchors ← Out.mapM' (readAnchor ped) (kids "anchor")
  let images ← Out.mapM' readImage (kids "image")
  let guidelines ← Out.mapM' readGuideline (kids "guideline")
  let o ← readOpt readOutline (kids "outline").head?
  .ok { name := name, width := width, unicode := unicode, anchors := anchors, images := images,
        guidelines := guidelines, outline := o }

/-- The glyph made of the parts read. -/
def glifOf (pio : PlistIO D) (kids : String → List Element) (p : Pre) (outline : Outline PD) : Glif PD D :=
  { outline := if !outline.isEmpty || !((p.outline.map Prod.snd).getD []).isEmpty then some outline else none
    anchors := p.anchors, components := { root := p.name, vec := (p.outline.map Prod.snd).getD [] }
    guidelines := p.guidelines, images := p.images, width := p.width, unicode := p.unicode, name := p.name
    note := (kids "note").head?.bind Element.getText, filename := none
    lib := match (kids "lib").head? with
      | some e => readLib pio e
      | none => .none }

theorem bind_congr {ε α β : Type} {x : Out ε α} {f g : α → Out ε β} (h : ∀ a, f a = g a) : (x >>= f) = (x >>= g) := by
  cases x <;> simp [h]

theorem readParts_pre (mid : IOF → IOF → IOF) (pio : PlistIO D) (ped : Pedantry) (rootName : String)
    (get : String → Option Str) (kids : String → List Element) :
    readParts (PD := PD) mid pio ped rootName get kids =
      (readPre ped rootName get kids >>= fun p =>
        outlineOfGlif mid ((p.outline.map Prod.fst).getD []) >>= fun o => .ok (glifOf pio kids p o)) := by
  unfold readParts readPre
  by_cases h : rootName ≠ "glyph"
  · rw [if_pos h, if_pos h]; rfl
  · rw [if_neg h, if_neg h, Out.bind_assoc']
    refine bind_congr fun format => ?_
    by_cases h : format ≠ "2".toList
    · rw [if_pos h, if_pos h]; rfl
    · rw [if_neg h, if_neg h]
      simp only [Out.bind_assoc', Out.bind_ok]
      rfl

theorem decides_readPre (ped : Pedantry) (root : Element) :
    Decides (readPre ped root.name root.get (fun n => named n root.children)) (Acceptable ped root) := by
  unfold readPre
  by_cases h : root.name ≠ "glyph"
  · rw [if_pos h]; exact Or.inr ⟨fun hh => h hh.tag, _, rfl⟩
  · rw [if_neg h]
    cases hg : root.get "format" with
    | none => exact Or.inr ⟨fun hh => absurd (hh.format.symm.trans hg) (by simp), _, rfl⟩
    | some f =>
      rw [Out.ofOption_some, Out.bind_ok]
      by_cases hf : f ≠ "2".toList
      · rw [if_pos hf]; exact Or.inr ⟨fun hh => hf (by rw [hh.format] at hg; exact (Option.some.inj hg).symm), _, rfl⟩
      · rw [if_neg hf]
        refine decides_iff (decides_bind (decides_ofOption _ _) fun _ _ =>
          decides_bind (decides_readOpt (decides_readAdvance ped) _) fun _ _ =>
          decides_bind (decides_mapM' fun a _ => decides_readUnicode a) fun _ _ =>
          decides_bind (decides_mapM' fun a _ => decides_readAnchor ped a) fun _ _ =>
          decides_bind (decides_mapM' fun a _ => decides_readImage a) fun _ _ =>
          decides_bind (decides_mapM' fun a _ => decides_readGuideline a) fun _ _ =>
          decides_bind_ok (decides_readOpt decides_readOutline _)) ?_
        constructor
        · rintro ⟨h1, h2, h3, h4, h5, h6, h7⟩
          exact ⟨by simpa using h, by rw [hg]; simpa using hf, h1, h2, h3, h4, h5, h6, h7⟩
        · rintro ⟨_, _, h1, h2, h3, h4, h5, h6, h7⟩
          exact ⟨h1, h2, h3, h4, h5, h6, h7⟩

/-- The reader as checks followed by the conversion of the contours. -/
theorem readGlif_pre (mid : IOF → IOF → IOF) (pio : PlistIO D) (ped : Pedantry) (root : Element) :
    readGlif (PD := PD) mid pio ped root =
      (readPre ped root.name root.get (fun n => named n root.children) >>= fun p =>
        outlineOfGlif mid ((p.outline.map Prod.fst).getD []) >>= fun o =>
          .ok (glifOf pio (fun n => named n root.children) p o)) := by
  rw [readGlif_eq, readParts_pre]

theorem mapM'_forall₂ {α β : Type} {f : α → R β} {l : List α} {r : List β} (h : Out.mapM' f l = .ok r) :
    List.Forall₂ (fun a b => f a = .ok b) l r := by
  induction l generalizing r with
  | nil => cases h; exact .nil
  | cons a l ih =>
    rw [Out.mapM'_cons] at h
    cases e : f a with
    | ok b =>
      rw [e, Out.bind_ok] at h
      cases e2 : Out.mapM' f l with
      | ok bs => rw [e2, Out.bind_ok] at h; cases h; exact .cons e (ih e2)
      | err _ => rw [e2] at h; cases h
      | panic => rw [e2] at h; cases h
    | err _ => rw [e] at h; cases h
    | panic => rw [e] at h; cases h

theorem readPoint_ok {e : Element} {g : GlifPoint} (h : readPoint e = .ok g) :
    g.ptype = PointType.parse ((e.get "type").getD "offcurve".toList) := by
  unfold readPoint at h
  cases h1 : needIof e "x" "<point> missing x" "<point> x not float" with
  | ok x =>
    rw [h1, Out.bind_ok] at h
    cases h2 : needIof e "y" "<point> missing y" "<point> y not float" with
    | ok y =>
      rw [h2, Out.bind_ok] at h
      simp only [parse_isValid, if_true] at h
      cases h; rfl
    | err _ => rw [h2] at h; cases h
    | panic => rw [h2] at h; cases h
  | err _ => rw [h1] at h; cases h
  | panic => rw [h1] at h; cases h

theorem readPoint_type {e : Element} {g : GlifPoint} (h : readPoint e = .ok g) :
    (g.ptype = .move ↔ OfType e "move") ∧ (g.ptype = .line ↔ OfType e "line") ∧
    (g.ptype = .curve ↔ OfType e "curve") ∧ (g.ptype = .qcurve ↔ OfType e "qcurve") ∧
    (g.ptype = .offcurve ↔ IsOff e) ∧ Writable g.ptype := by
  rw [readPoint_ok h]
  unfold OfType IsOff onCurveTypes Writable
  have hm : "move".toList = ['m', 'o', 'v', 'e'] := rfl
  have hl : "line".toList = ['l', 'i', 'n', 'e'] := rfl
  have hc : "curve".toList = ['c', 'u', 'r', 'v', 'e'] := rfl
  have hq : "qcurve".toList = ['q', 'c', 'u', 'r', 'v', 'e'] := rfl
  cases e.get "type" with
  | none => 
    have : PointType.parse ((none : Option Str).getD "offcurve".toList) = .offcurve := by decide
    rw [this]; simp
  | some t =>
    simp only [Option.getD_some, Option.some.injEq]
    unfold PointType.parse
    rw [hm, hl, hc, hq]
    split
    next h => subst h; simp
    next h1 =>
      split
      next h => subst h; simp
      next h2 =>
        split
        next h => subst h; simp
        next h3 =>
          split
          next h => subst h; simp
          next h4 => simp [h1, h2, h3, h4]

end GP
