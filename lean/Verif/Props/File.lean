import Verif.Lemmas.FileRead
import Verif.Props.ReadContour
/-!
# C06 to C10 for whole documents, C43, C58
-/
open Fl Fl.Text
namespace GP
variable {PD D : Type}
open Spec

/-! ## C09 -/

theorem sameLeaf_need {e f : Element} (h : SameLeaf e f) (k t : String) : need e k t = need f k t := by
  unfold need; rw [h k]

theorem sameLeaf_iof {e f : Element} (h : SameLeaf e f) (k t u : String) : needIof e k t u = needIof f k t u := by
  unfold needIof; rw [sameLeaf_need h]

theorem sameLeaf_f32 {e f : Element} (h : SameLeaf e f) (k t u : String) : needF32 e k t u = needF32 f k t u := by
  unfold needF32; rw [sameLeaf_need h]

theorem sameLeaf_matrix {e f : Element} (h : SameLeaf e f) (m : Mat6) : loadMatrix e m = loadMatrix f m := by
  unfold loadMatrix optIof; simp only [h _]

theorem sameLeaf_color {e f : Element} (h : SameLeaf e f) : optColor e = optColor f := by
  unfold optColor; simp only [h _]

theorem sameLeaf_advance (ped : Pedantry) {e f : Element} (h : SameLeaf e f) : readAdvance ped e = readAdvance ped f := by
  unfold readAdvance; rw [sameLeaf_need h]
theorem sameLeaf_unicode {e f : Element} (h : SameLeaf e f) : readUnicode e = readUnicode f := by
  unfold readUnicode; rw [sameLeaf_need h]
theorem sameLeaf_anchor (ped : Pedantry) {e f : Element} (h : SameLeaf e f) : readAnchor ped e = readAnchor ped f := by
  unfold readAnchor; simp only [sameLeaf_iof h, h _]
theorem sameLeaf_image {e f : Element} (h : SameLeaf e f) : readImage e = readImage f := by
  unfold readImage; simp only [sameLeaf_need h, sameLeaf_matrix h, sameLeaf_color h, h _]
theorem sameLeaf_guideline {e f : Element} (h : SameLeaf e f) : readGuideline e = readGuideline f := by
  unfold readGuideline; simp only [sameLeaf_f32 h, sameLeaf_iof h, sameLeaf_color h, h _]
theorem sameLeaf_point {e f : Element} (h : SameLeaf e f) : readPoint e = readPoint f := by
  unfold readPoint; simp only [sameLeaf_iof h, h _]
theorem sameLeaf_component {e f : Element} (h : SameLeaf e f) : readComponent e = readComponent f := by
  unfold readComponent; simp only [sameLeaf_need h, sameLeaf_matrix h, h _]

theorem mapM'_congr₂ {α β : Type} {f : α → R β} {rel : α → α → Prop} {l m : List α} (h : List.Forall₂ rel l m)
    (hf : ∀ a b, rel a b → f a = f b) : Out.mapM' f l = Out.mapM' f m := by
  induction h with
  | nil => rfl
  | cons hab _ ih => rw [Out.mapM'_cons, Out.mapM'_cons, hf _ _ hab, ih]

theorem sameContour_read {e f : Element} (h : SameContour e f) : readContour e = readContour f := by
  rw [readContour_eq, readContour_eq]
  exact mapM'_congr₂ h fun _ _ => sameLeaf_point

theorem sameOutline_read {e f : Element} (h : SameOutline e f) : readOutline e = readOutline f := by
  rw [readOutline_eq, readOutline_eq]
  unfold readOutlineBy
  rw [mapM'_congr₂ h.1 fun _ _ => sameContour_read, mapM'_congr₂ h.2 fun _ _ => sameLeaf_component]

theorem head_congr₂ {α β : Type} {f : α → β} {rel : α → α → Prop} {l m : List α} (h : List.Forall₂ rel l m)
    (hf : ∀ a b, rel a b → f a = f b) : l.head?.map f = m.head?.map f := by
  cases h with
  | nil => rfl
  | cons hab _ => simp [hf _ _ hab]

theorem readOpt_map {α : Type} (f : Element → R α) (o : Option Element) :
    readOpt f o = match o.map f with
      | some x => x >>= fun a => .ok (some a)
      | none => .ok none := by
  cases o <;> rfl

theorem noteTexts_read (cs : List Node) : (named "note" cs).head?.bind Element.getText =
    if (noteTexts cs).isEmpty then none else some (noteTexts cs).flatten := by
  unfold noteTexts
  cases (named "note" cs).head? with
  | none => rfl
  | some e => rfl

theorem sameLib_read (pio : PlistIO D) {e f : Element} (h : SameLib e f) : readLib pio e = readLib pio f := by
  rcases e with ⟨n, a, c⟩
  rcases f with ⟨n', a', c'⟩
  obtain ⟨rfl, rfl⟩ := h
  rfl

/-- **C09.** The order of elements of different names, the order of attributes, the content of
elements that only have attributes, and unknown nodes do not matter: two documents that say the same
are read the same, to the same glyph or the same error. -/
theorem C09_same_document (mid : IOF → IOF → IOF) (pio : PlistIO D) (ped : Pedantry) (r s : Element)
    (h : SameDoc r s) : readGlif (PD := PD) mid pio ped r = readGlif mid pio ped s := by
  rw [readGlif_pre, readGlif_pre]
  have hpre : readPre ped r.name r.get (fun n => named n r.children) =
      readPre ped s.name s.get (fun n => named n s.children) := by
    unfold readPre
    simp only [h.name, h.attrs _, readOpt_map, head_congr₂ h.advance fun _ _ => sameLeaf_advance ped,
      mapM'_congr₂ h.unicode fun _ _ => sameLeaf_unicode, mapM'_congr₂ h.anchor fun _ _ => sameLeaf_anchor ped,
      mapM'_congr₂ h.image fun _ _ => sameLeaf_image, mapM'_congr₂ h.guideline fun _ _ => sameLeaf_guideline,
      head_congr₂ h.outline fun _ _ => sameOutline_read]
  rw [hpre]
  refine bind_congr fun p => bind_congr fun o => ?_
  have h1 : (named "note" r.children).head?.bind Element.getText = (named "note" s.children).head?.bind Element.getText := by
    rw [noteTexts_read, noteTexts_read, h.note]
  have h2 := head_congr₂ h.lib fun _ _ => sameLib_read pio
  unfold glifOf
  simp only [h1]
  cases e1 : (named "lib" r.children).head? <;> cases e2 : (named "lib" s.children).head? <;> simp_all

/-- **C09** in the form of its statement. -/
theorem C09_order (mid : IOF → IOF → IOF) (pio : PlistIO D) (ped : Pedantry) (r s : Element)
    (hn : r.name = s.name) (ha : ∀ k, r.get k = s.get k)
    (hk : ∀ n ∈ glyphNames, named n r.children = named n s.children) :
    readGlif (PD := PD) mid pio ped r = readGlif mid pio ped s := by
  have hk' : ∀ n ∈ glyphNames, ∀ rel : Element → Element → Prop, (∀ e, rel e e) →
      List.Forall₂ rel (named n r.children) (named n s.children) := by
    intro n hn rel hr
    rw [hk n hn]
    exact List.forall₂_same.2 fun e _ => hr e
  have l : ∀ e, SameLeaf e e := fun e k => rfl
  refine C09_same_document mid pio ped r s ⟨hn, ha, ?_, ?_, ?_, ?_, ?_, ?_, ?_, ?_⟩
  · exact hk' _ (by decide) _ l
  · exact hk' _ (by decide) _ l
  · exact hk' _ (by decide) _ l
  · exact hk' _ (by decide) _ l
  · exact hk' _ (by decide) _ l
  · unfold noteTexts; rw [hk _ (by decide)]
  · refine hk' _ (by decide) _ fun e => ⟨List.forall₂_same.2 fun e _ => ?_, List.forall₂_same.2 fun e _ => l e⟩
    exact List.forall₂_same.2 fun e _ => l e
  · exact hk' _ (by decide) _ (fun _ => ⟨rfl, rfl⟩)

/-- Two documents with children in different order. -/
example :
    let a : Node := .elem "unicode" [("hex", "41".toList)] []
    let b : Node := .elem "anchor" [("x", "1".toList), ("y", "2".toList)] []
    let c : Node := .elem "unicode" [("hex", "42".toList)] []
    ∀ n, named n [a, b, c] = named n [b, a, c] := by
  intro a b c n
  simp only [a, b, c, named_cons_elem]
  by_cases h1 : "unicode" = n <;> by_cases h2 : "anchor" = n <;> simp_all
  subst h1; simp at h2

/-! ## C10 -/

theorem padded_named {names : List String} {rel : Node → Node → Prop} {n : String} (hn : n ∈ names)
    {R' : Element → Element → Prop} (hr : ∀ c d, rel c d → List.Forall₂ R' (named n [c]) (named n [d]))
    {cs ds : List Node} (h : Padded names rel cs ds) : List.Forall₂ R' (named n cs) (named n ds) := by
  induction h with
  | nil => exact .nil
  | keep c d cs ds hcd _ ih =>
    rw [named_cons n c, named_cons n d]
    exact List.rel_append (hr c d hcd) ih
  | pad m cs ds hm _ ih =>
    rw [named_cons n m]
    have : named n [m] = [] := by
      cases m with
      | elem name attrs ch =>
        rw [named_cons_elem]
        have : name ≠ n := by rintro rfl; exact hm hn
        simp [this]
      | _ => rfl
    rw [this]; exact ih

theorem sameLeaf_refl (e : Element) : SameLeaf e e := fun _ => rfl
theorem sameContour_refl (e : Element) : SameContour e e := List.forall₂_same.2 fun e _ => sameLeaf_refl e
theorem sameOutline_refl (e : Element) : SameOutline e e :=
  ⟨List.forall₂_same.2 fun e _ => sameContour_refl e, List.forall₂_same.2 fun e _ => sameLeaf_refl e⟩

theorem paddedContour_same {n : String} {R' : Element → Element → Prop} (hr : ∀ e, R' e e)
    (hc : n = "contour" → ∀ e f, SameContour e f → R' e f) {c d : Node} (h : PaddedContour c d) :
    List.Forall₂ R' (named n [c]) (named n [d]) := by
  rcases h with rfl | ⟨attrs, cs, ds, rfl, rfl, hp⟩
  · exact List.forall₂_same.2 fun e _ => hr e
  · rw [named_cons_elem, named_cons_elem]
    by_cases hn : "contour" = n
    · rw [if_pos hn, if_pos hn]
      refine .cons (hc hn.symm _ _ ?_) .nil
      refine padded_named (by simp) ?_ hp
      rintro c d rfl
      exact List.forall₂_same.2 fun e _ => sameLeaf_refl e
    · rw [if_neg hn, if_neg hn]; exact .nil

theorem paddedOutline_same {n : String} {R' : Element → Element → Prop} (hr : ∀ e, R' e e)
    (hc : n = "outline" → ∀ e f, SameOutline e f → R' e f) {c d : Node} (h : PaddedOutline c d) :
    List.Forall₂ R' (named n [c]) (named n [d]) := by
  rcases h with rfl | ⟨attrs, cs, ds, rfl, rfl, hp⟩
  · exact List.forall₂_same.2 fun e _ => hr e
  · rw [named_cons_elem, named_cons_elem]
    by_cases hn : "outline" = n
    · rw [if_pos hn, if_pos hn]
      refine .cons (hc hn.symm _ _ ⟨?_, ?_⟩) .nil
      · exact padded_named (by decide) (fun c d => paddedContour_same sameContour_refl fun _ _ _ h => h) hp
      · refine padded_named (by decide) (fun c d => paddedContour_same sameLeaf_refl fun h => ?_) hp
        exact absurd h (by decide)
    · rw [if_neg hn, if_neg hn]; exact .nil

/-- **C10.** Unknown elements, text, comments, CDATA and processing instructions among the children
of `<glyph>`, `<outline>` and `<contour>` do not change the result. -/
theorem C10_unknown_ignored (mid : IOF → IOF → IOF) (pio : PlistIO D) (ped : Pedantry) (r s : Element)
    (h : PaddedDoc r s) : readGlif (PD := PD) mid pio ped r = readGlif mid pio ped s := by
  obtain ⟨hn, ha, hp⟩ := h
  have other : ∀ n ∈ glyphNames, n ≠ "outline" → ∀ rel : Element → Element → Prop, (∀ e, rel e e) →
      List.Forall₂ rel (named n r.children) (named n s.children) := fun n hn hne rel hr =>
    padded_named hn (fun c d => paddedOutline_same hr fun h => absurd h hne) hp
  refine C09_same_document mid pio ped r s ⟨hn, fun k => by unfold Element.get; rw [ha], ?_, ?_, ?_, ?_, ?_, ?_, ?_, ?_⟩
  · exact other _ (by decide) (by decide) _ sameLeaf_refl
  · exact other _ (by decide) (by decide) _ sameLeaf_refl
  · exact other _ (by decide) (by decide) _ sameLeaf_refl
  · exact other _ (by decide) (by decide) _ sameLeaf_refl
  · exact other _ (by decide) (by decide) _ sameLeaf_refl
  · have hnote : named "note" r.children = named "note" s.children := by
      rw [← List.forall₂_eq_eq_eq]; exact other _ (by decide) (by decide) _ (fun _ => rfl)
    unfold noteTexts; rw [hnote]
  · exact padded_named (by decide) (fun c d => paddedOutline_same sameOutline_refl fun _ _ _ h => h) hp
  · exact other _ (by decide) (by decide) _ (fun _ => ⟨rfl, rfl⟩)

/-- A comment in the contour, an unknown element in the outline and text in the glyph. -/
example :
    let p : Node := .elem "point" [("x", "1".toList), ("y", "2".toList), ("type", "line".toList)] []
    PaddedDoc { name := "glyph", children := [.elem "outline" [] [.elem "contour" [] [p, p]]] }
      { name := "glyph", children := [.text "x".toList, .elem "outline" [] [.elem "guide" [] [],
        .elem "contour" [] [p, .comment "hi".toList, p]]] } := by
  intro p
  refine ⟨rfl, rfl, .pad _ _ _ trivial (.keep _ _ _ _ (Or.inr ⟨_, _, _, rfl, rfl, ?_⟩) .nil)⟩
  refine .pad _ _ _ (by simp [Ignorable, outlineNames]) (.keep _ _ _ _ (Or.inr ⟨_, _, _, rfl, rfl, ?_⟩) .nil)
  exact .keep _ _ _ _ rfl (.pad _ _ _ trivial (.keep _ _ _ _ rfl .nil))

/-! ## C58 -/

/-- **C58.** Reading reports an error exactly for the documents that are not acceptable; otherwise it
returns a glyph, or panics (C07). -/
theorem C58_error_iff (mid : IOF → IOF → IOF) (pio : PlistIO D) (ped : Pedantry) (root : Element) :
    (∃ e, readGlif (PD := PD) mid pio ped root = .err e) ↔ ¬ Acceptable ped root := by
  rw [readGlif_pre]
  rcases decides_readPre ped root with ⟨h, p, e⟩ | ⟨h, er, e⟩
  · rw [e, Out.bind_ok]
    simp only [h, not_true_eq_false, iff_false]
    rintro ⟨er, he⟩
    unfold outlineOfGlif at he
    have : ∀ (gcs : List GlifContour) er, Out.mapM' (contourOfGlif (PD := PD) mid) gcs ≠ .err er := by
      intro gcs er
      induction gcs with
      | nil => simp
      | cons gc gcs ih =>
        rw [Out.mapM'_cons]
        cases e1 : contourOfGlif (PD := PD) mid gc with
        | ok c =>
          rw [Out.bind_ok]
          cases e2 : Out.mapM' (contourOfGlif (PD := PD) mid) gcs with
          | ok cs => simp
          | panic => simp
          | err e' => intro h; cases h; exact ih e2
        | err e' => exact absurd e1 (C07_contour_no_err mid gc e')
        | panic => simp
    cases e1 : Out.mapM' (contourOfGlif (PD := PD) mid) ((p.outline.map Prod.fst).getD []) with
    | ok cs => rw [e1] at he; cases he
    | err e' => exact this _ _ e1
    | panic => rw [e1] at he; cases he
  · rw [e]; simp [h]

/-! ## C07 -/

/-- The contours read are those of the first outline. -/
theorem pre_contours {ped : Pedantry} {root : Element} {p : Pre}
    (h : readPre ped root.name root.get (fun n => named n root.children) = .ok p) :
    ∃ gcs : List GlifContour, List.Forall₂ (fun e gc => readContour e = .ok gc) (contoursOf root) gcs ∧
      (p.outline.map Prod.fst).getD [] = gcs.filter (fun c => !c.isEmpty) := by
  have ho : readOpt readOutline (named "outline" root.children).head? = .ok p.outline := by
    unfold readPre at h
    split at h
    · cases h
    · cases e0 : root.get "format" with
      | none => rw [e0] at h; cases h
      | some f =>
        rw [e0, Out.ofOption_some, Out.bind_ok] at h
        split at h
        · cases h
        · cases e1 : root.get "name" with
          | none => rw [e1] at h; cases h
          | some nm =>
            rw [e1, Out.ofOption_some, Out.bind_ok] at h
            cases e2 : readOpt (readAdvance ped) (named "advance" root.children).head? <;> rw [e2] at h <;> try cases h
            rw [Out.bind_ok] at h
            cases e3 : Out.mapM' readUnicode (named "unicode" root.children) <;> rw [e3] at h <;> try cases h
            rw [Out.bind_ok] at h
            cases e4 : Out.mapM' (readAnchor ped) (named "anchor" root.children) <;> rw [e4] at h <;> try cases h
            rw [Out.bind_ok] at h
            cases e5 : Out.mapM' readImage (named "image" root.children) <;> rw [e5] at h <;> try cases h
            rw [Out.bind_ok] at h
            cases e6 : Out.mapM' readGuideline (named "guideline" root.children) <;> rw [e6] at h <;> try cases h
            rw [Out.bind_ok] at h
            cases e7 : readOpt readOutline (named "outline" root.children).head? <;> rw [e7] at h <;> try cases h
            rfl
  unfold contoursOf
  cases ho' : (named "outline" root.children).head? with
  | none =>
    rw [ho'] at ho
    have : p.outline = none := by unfold readOpt at ho; exact (Out.ok.inj ho).symm
    rw [this]; exact ⟨[], .nil, rfl⟩
  | some o =>
    rw [ho'] at ho
    unfold readOpt at ho
    simp only [] at ho
    rw [readOutline_eq] at ho
    unfold readOutlineBy at ho
    cases e1 : Out.mapM' readContour (named "contour" o.children) <;> rw [e1] at ho <;> try cases ho
    next cs =>
      rw [Out.bind_ok] at ho
      cases e2 : Out.mapM' readComponent (named "component" o.children) <;> rw [e2] at ho <;> try cases ho
      next comps =>
        simp only [Out.bind_ok, Out.ok.injEq] at ho
        rw [← ho]
        exact ⟨cs, mapM'_forall₂ e1, rfl⟩

/-- A contour as read. -/
theorem contour_read {e : Element} {gc : GlifContour} (h : readContour e = .ok gc) :
    List.Forall₂ (fun p g => readPoint p = .ok g) (named "point" e.children) gc := by
  rw [readContour_eq] at h
  exact mapM'_forall₂ h

theorem forall₂_mem_right {α β : Type} {rel : α → β → Prop} {l : List α} {m : List β} (h : List.Forall₂ rel l m)
    {b : β} (hb : b ∈ m) : ∃ a ∈ l, rel a b := by
  induction h with
  | nil => cases hb
  | cons hab _ ih =>
    rcases List.mem_cons.1 hb with rfl | hb
    · exact ⟨_, List.mem_cons_self, hab⟩
    · obtain ⟨a, ha, hr⟩ := ih hb; exact ⟨a, List.mem_cons_of_mem _ ha, hr⟩

theorem forall₂_mem_left {α β : Type} {rel : α → β → Prop} {l : List α} {m : List β} (h : List.Forall₂ rel l m)
    {a : α} (ha : a ∈ l) : ∃ b ∈ m, rel a b := by
  induction h with
  | nil => cases ha
  | cons hab _ ih =>
    rcases List.mem_cons.1 ha with rfl | ha
    · exact ⟨_, List.mem_cons_self, hab⟩
    · obtain ⟨b, hb, hr⟩ := ih ha; exact ⟨b, List.mem_cons_of_mem _ hb, hr⟩

theorem contour_read_file {e : Element} {gc : GlifContour} (h : readContour e = .ok gc) (hne : gc ≠ []) :
    FileContour gc := by
  refine ⟨hne, fun g hg => ?_⟩
  obtain ⟨p, _, hr⟩ := forall₂_mem_right (contour_read h) hg
  exact (readPoint_type hr).2.2.2.2.2

theorem contour_read_panic (mid : IOF → IOF → IOF) {e : Element} {gc : GlifContour} (h : readContour e = .ok gc)
    (hne : gc ≠ []) : contourOfGlif (PD := PD) mid gc = .panic ↔ QuadraticInCubic e := by
  have hf := contour_read_file h hne
  have hr := contour_read h
  unfold QuadraticInCubic
  generalize named "point" e.children = els at hr
  cases hr with
  | nil => exact absurd rfl hne
  | @cons p g ps gs hpg hrest =>
    rw [C07_contour_panics_iff mid g gs hf]
    have ht := readPoint_type hpg
    constructor
    · rintro ⟨h1, q, hq, hqt⟩
      refine ⟨p, ps, rfl, ?_, ?_⟩
      · rwa [ht.1, ht.2.1, ht.2.2.1] at h1
      · obtain ⟨p', hp', hr''⟩ := forall₂_mem_right hrest hq
        exact ⟨p', hp', (readPoint_type hr'').2.2.2.1.1 hqt⟩
    · rintro ⟨p', ps', e', h1, q, hq, hqt⟩
      cases e'
      refine ⟨?_, ?_⟩
      · rwa [ht.1, ht.2.1, ht.2.2.1]
      · obtain ⟨g', hg', hr''⟩ := forall₂_mem_left hrest hq
        exact ⟨g', hg', (readPoint_type hr'').2.2.2.1.2 hqt⟩

theorem mapM'_panic_iff {α β : Type} {f : α → R β} (hf : ∀ a e, f a ≠ .err e) (l : List α) :
    Out.mapM' f l = .panic ↔ ∃ a ∈ l, f a = .panic := by
  induction l with
  | nil => simp
  | cons a l ih =>
    rw [Out.mapM'_cons]
    cases e1 : f a with
    | ok b =>
      rw [Out.bind_ok]
      constructor
      · intro h
        have : Out.mapM' f l = .panic := by
          cases e2 : Out.mapM' f l with
          | ok bs => rw [e2] at h; cases h
          | err e => rw [e2] at h; cases h
          | panic => rfl
        obtain ⟨x, hx, hp⟩ := ih.1 this
        exact ⟨x, List.mem_cons_of_mem _ hx, hp⟩
      · rintro ⟨x, hx, hp⟩
        rcases List.mem_cons.1 hx with rfl | hx
        · rw [e1] at hp; cases hp
        · rw [ih.2 ⟨x, hx, hp⟩]; rfl
    | err e => exact absurd e1 (hf a e)
    | panic => simp [e1]

theorem outlineOfGlif_panic (mid : IOF → IOF → IOF) (gcs : List GlifContour) :
    outlineOfGlif (PD := PD) mid gcs = .panic ↔ ∃ gc ∈ gcs, contourOfGlif (PD := PD) mid gc = .panic := by
  rw [← mapM'_panic_iff (C07_contour_no_err mid)]
  unfold outlineOfGlif
  cases Out.mapM' (contourOfGlif (PD := PD) mid) gcs <;> simp

/-- **C07.** Reading panics exactly for a document that has no reportable mistake and has a contour
that starts with a `move`, `line` or `curve` point and has a `qcurve` point. -/
theorem C07_panics_iff (mid : IOF → IOF → IOF) (pio : PlistIO D) (ped : Pedantry) (root : Element) :
    readGlif (PD := PD) mid pio ped root = .panic ↔
      Acceptable ped root ∧ ∃ c ∈ contoursOf root, QuadraticInCubic c := by
  rw [readGlif_pre]
  rcases decides_readPre ped root with ⟨h, p, e⟩ | ⟨h, er, e⟩
  · rw [e, Out.bind_ok]
    obtain ⟨gcs, hr, hg⟩ := pre_contours e
    rw [hg]
    have : (outlineOfGlif (PD := PD) mid (gcs.filter fun c => !c.isEmpty) >>= fun o =>
        (.ok (glifOf pio (fun n => named n root.children) p o) : R (Glif PD D))) = .panic ↔
        outlineOfGlif (PD := PD) mid (gcs.filter fun c => !c.isEmpty) = .panic := by
      cases outlineOfGlif (PD := PD) mid (gcs.filter fun c => !c.isEmpty) <;> simp
    rw [this, outlineOfGlif_panic]
    simp only [h, true_and]
    constructor
    · rintro ⟨gc, hgc, hp⟩
      rw [List.mem_filter] at hgc
      obtain ⟨c, hc, hrc⟩ := forall₂_mem_right hr hgc.1
      refine ⟨c, hc, (contour_read_panic mid hrc ?_).1 hp⟩
      rintro rfl; simp at hgc
    · rintro ⟨c, hc, hq⟩
      obtain ⟨gc, hgc, hrc⟩ := forall₂_mem_left hr hc
      have hne : gc ≠ [] := by
        rintro rfl
        have := contour_read hrc
        obtain ⟨p, ps, e1, _⟩ := hq
        rw [e1] at this; cases this
      refine ⟨gc, ?_, (contour_read_panic mid hrc hne).2 hq⟩
      rw [List.mem_filter]
      cases gc with
      | nil => exact absurd rfl hne
      | cons g gs => exact ⟨hgc, rfl⟩
  · rw [e]; simp [h]

namespace Sample
/-- A `<point>` element. -/
def pe (t : String) (x y : String) : Node := .elem "point" [("x", x.toList), ("y", y.toList), ("type", t.toList)] []
/-- An off-curve `<point>` element. -/
def offe (x y : String) : Node := .elem "point" [("x", x.toList), ("y", y.toList)] []
/-- A document with one contour. -/
def doc (ps : List Node) : Element :=
  { name := "glyph", attrs := [("name", "a".toList), ("format", "2".toList)]
    children := [.elem "outline" [] [.elem "contour" [] ps]] }
end Sample

/-- C07 as stated is false. -/
theorem C07_false (mid : IOF → IOF → IOF) (pio : PlistIO D) :
    ∃ root, readGlif (PD := PD) mid pio {} root = .panic := by
  refine ⟨Sample.doc [Sample.pe "line" "0" "0", Sample.offe "5" "5", Sample.pe "qcurve" "1" "0"], ?_⟩
  rw [C07_panics_iff]
  have n0 : ∃ x, IOF.parse "0".toList = some x := ⟨.int 0, by decide +kernel⟩
  have n1 : ∃ x, IOF.parse "1".toList = some x := ⟨.int 1, by decide +kernel⟩
  have n5 : ∃ x, IOF.parse "5".toList = some x := ⟨.int 5, by decide +kernel⟩
  refine ⟨⟨rfl, rfl, ⟨_, rfl⟩, ?_, ?_, ?_, ?_, ?_, ?_⟩, ⟨"contour", [], _⟩, List.mem_singleton.2 rfl, ?_⟩
  · intro e h; cases h
  · intro e h; cases h
  · intro e h; cases h
  · intro e h; cases h
  · intro e h; cases h
  · intro o ho
    cases ho
    refine ⟨?_, by intro c hc; cases hc⟩
    intro c hc p hp
    have : c = ⟨"contour", [], [Sample.pe "line" "0" "0", Sample.offe "5" "5", Sample.pe "qcurve" "1" "0"]⟩ :=
      List.mem_singleton.1 hc
    subst this
    have hp' : p ∈ [(⟨"point", [("x", "0".toList), ("y", "0".toList), ("type", "line".toList)], []⟩ : Element),
      ⟨"point", [("x", "5".toList), ("y", "5".toList)], []⟩,
      ⟨"point", [("x", "1".toList), ("y", "0".toList), ("type", "qcurve".toList)], []⟩] := hp
    simp only [List.mem_cons, List.not_mem_nil, or_false] at hp'
    obtain ⟨x0, n0⟩ := n0
    obtain ⟨x1, n1⟩ := n1
    obtain ⟨x5, n5⟩ := n5
    rcases hp' with rfl | rfl | rfl
    · exact ⟨⟨_, rfl, (C79_accepted _).1 ⟨_, n0⟩⟩, ⟨_, rfl, (C79_accepted _).1 ⟨_, n0⟩⟩⟩
    · exact ⟨⟨_, rfl, (C79_accepted _).1 ⟨_, n5⟩⟩, ⟨_, rfl, (C79_accepted _).1 ⟨_, n5⟩⟩⟩
    · exact ⟨⟨_, rfl, (C79_accepted _).1 ⟨_, n1⟩⟩, ⟨_, rfl, (C79_accepted _).1 ⟨_, n0⟩⟩⟩
  · exact ⟨_, _, rfl, Or.inr (Or.inl rfl), ⟨"point", [("x", "1".toList), ("y", "0".toList), ("type", "qcurve".toList)], []⟩,
      List.mem_cons_of_mem _ List.mem_cons_self, rfl⟩

/-- What is left of C07: a document of which no contour mixes cubic and quadratic points in that way is
read without a panic. -/
theorem C07_partial (mid : IOF → IOF → IOF) (pio : PlistIO D) (ped : Pedantry) (root : Element)
    (h : ∀ c ∈ contoursOf root, ¬ QuadraticInCubic c) : readGlif (PD := PD) mid pio ped root ≠ .panic := by
  rw [Ne, C07_panics_iff]
  rintro ⟨_, c, hc, hq⟩
  exact h c hc hq

example : ∀ c ∈ contoursOf (Sample.doc [Sample.pe "qcurve" "0" "0", Sample.offe "5" "5", Sample.pe "line" "1" "0"]),
    ¬ QuadraticInCubic c := by
  intro c hc
  have : c = ⟨"contour", [], [Sample.pe "qcurve" "0" "0", Sample.offe "5" "5", Sample.pe "line" "1" "0"]⟩ :=
    List.mem_singleton.1 hc
  subst this
  rintro ⟨p, ps, e, h, _⟩
  cases e
  rcases h with h | h | h <;> exact absurd h (by unfold OfType; decide)

end GP
