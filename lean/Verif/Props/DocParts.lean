import Verif.Spec.DocParts
import Verif.Props.File
import Verif.Props.Read
/-!
# C146: a document is read part by part
-/
open Fl Fl.Text
namespace GP
variable {PD D : Type}
open Spec

/-! ## The reader as a conjunction -/

theorem mapM'_append_ok {ε α β : Type} {f : α → Out ε β} {a b : List α} {r : List β} :
    Out.mapM' f (a ++ b) = .ok r ↔ ∃ r₁ r₂, Out.mapM' f a = .ok r₁ ∧ Out.mapM' f b = .ok r₂ ∧ r = r₁ ++ r₂ := by
  induction a generalizing r with
  | nil =>
    constructor
    · exact fun h => ⟨[], r, rfl, h, rfl⟩
    · rintro ⟨r₁, r₂, h1, h2, rfl⟩; cases h1; exact h2
  | cons x a ih =>
    rw [List.cons_append, Out.mapM'_cons, Out.mapM'_cons]
    constructor
    · intro h
      obtain ⟨y, hy, h⟩ := bind_eq_ok.1 h
      obtain ⟨ys, hys, h⟩ := bind_eq_ok.1 h
      cases h
      obtain ⟨r₁, r₂, h1, h2, rfl⟩ := ih.1 hys
      exact ⟨y :: r₁, r₂, by rw [hy, Out.bind_ok, h1, Out.bind_ok], h2, rfl⟩
    · rintro ⟨r₁, r₂, h1, h2, rfl⟩
      obtain ⟨y, hy, h⟩ := bind_eq_ok.1 h1
      obtain ⟨ys, hys, h⟩ := bind_eq_ok.1 h
      cases h
      rw [hy, Out.bind_ok, ih.2 ⟨ys, r₂, hys, h2, rfl⟩, Out.bind_ok, List.cons_append]

theorem readGlif_ok_iff (mid : IOF → IOF → IOF) (pio : PlistIO D) (ped : Pedantry) (root : Element) (g : Glif PD D) :
    readGlif mid pio ped root = .ok g ↔ ∃ (p : Pre) (out : Outline PD),
      root.name = "glyph" ∧ root.get "format" = some "2".toList ∧ root.get "name" = some p.name ∧
      readOpt (readAdvance ped) (named "advance" root.children).head? = .ok p.width ∧
      Out.mapM' readUnicode (named "unicode" root.children) = .ok p.unicode ∧
      Out.mapM' (readAnchor ped) (named "anchor" root.children) = .ok p.anchors ∧
      Out.mapM' readImage (named "image" root.children) = .ok p.images ∧
      Out.mapM' readGuideline (named "guideline" root.children) = .ok p.guidelines ∧
      readOpt readOutline (named "outline" root.children).head? = .ok p.outline ∧
      outlineOfGlif mid ((p.outline.map Prod.fst).getD []) = .ok out ∧
      g = glifOf pio (fun n => named n root.children) p out := by
  rw [readGlif_pre]
  constructor
  · intro h
    obtain ⟨p, hp, h⟩ := bind_eq_ok.1 h
    obtain ⟨out, ho, h⟩ := bind_eq_ok.1 h
    unfold readPre at hp
    split at hp
    · cases hp
    next hname =>
    obtain ⟨fmt, hf, hp⟩ := bind_eq_ok.1 hp
    split at hp
    · cases hp
    next hfmt =>
    obtain ⟨nm, hn, hp⟩ := bind_eq_ok.1 hp
    obtain ⟨w, h1, hp⟩ := bind_eq_ok.1 hp
    obtain ⟨us, h2, hp⟩ := bind_eq_ok.1 hp
    obtain ⟨as, h3, hp⟩ := bind_eq_ok.1 hp
    obtain ⟨is, h4, hp⟩ := bind_eq_ok.1 hp
    obtain ⟨gs, h5, hp⟩ := bind_eq_ok.1 hp
    obtain ⟨o, h6, hp⟩ := bind_eq_ok.1 hp
    cases hp
    cases h
    have hf' : root.get "format" = some fmt := by
      cases hg : root.get "format" with
      | none => rw [hg] at hf; cases hf
      | some x => rw [hg] at hf; cases hf; rfl
    have hn' : root.get "name" = some nm := by
      cases hg : root.get "name" with
      | none => rw [hg] at hn; cases hn
      | some x => rw [hg] at hn; cases hn; rfl
    have hfmt : fmt = "2".toList := by simpa using hfmt
    exact ⟨_, out, by simpa using hname, by rw [hf', hfmt], hn', h1, h2, h3, h4, h5, h6, ho, rfl⟩
  · rintro ⟨p, out, hname, hf, hn, h1, h2, h3, h4, h5, h6, ho, rfl⟩
    have : readPre ped root.name root.get (fun n => named n root.children) = .ok p := by
      unfold readPre
      rw [if_neg (by simp [hname]), hf, Out.ofOption_some, Out.bind_ok, if_neg (by simp), hn, Out.ofOption_some, Out.bind_ok]
      simp only [h1, h2, h3, h4, h5, h6, Out.bind_ok]
    rw [this, Out.bind_ok, ho, Out.bind_ok]

/-! ## Parts of the document -/

theorem readOpt_apart {α : Type} {f : Element → R α} {a b : List Element} (h : a = [] ∨ b = []) {r : Option α} :
    readOpt f (a ++ b).head? = .ok r ↔ ∃ r₁ r₂, readOpt f a.head? = .ok r₁ ∧ readOpt f b.head? = .ok r₂ ∧ r = r₁.or r₂ := by
  rcases h with rfl | rfl
  · constructor
    · exact fun h => ⟨none, r, rfl, h, rfl⟩
    · rintro ⟨r₁, r₂, h1, h2, rfl⟩; cases h1; exact h2
  · rw [List.append_nil]
    constructor
    · exact fun h => ⟨r, none, h, rfl, by cases r <;> rfl⟩
    · rintro ⟨r₁, r₂, h1, h2, rfl⟩; cases h2; rw [h1]; cases r₁ <;> rfl

theorem readOpt_nil {α : Type} {f : Element → R α} {a : List Element} {r : Option α} (h : a = []) (hr : readOpt f a.head? = .ok r) : r = none := by
  subst h; cases hr; rfl

theorem note_apart {a b : List Element} (h : a = [] ∨ b = []) :
    (a ++ b).head?.bind Element.getText = (a.head?.bind Element.getText).or (b.head?.bind Element.getText) := by
  rcases h with rfl | rfl
  · rfl
  · rw [List.append_nil]; exact (Option.or_none).symm

/-- The glyphs of the parts put together. -/
theorem glifOf_together {pio : PlistIO D} {as bs : List Node} {p q : Pre} {o out out' : Outline PD}
    (hn : named "note" as = [] ∨ named "note" bs = []) (hl : named "lib" as = [] ∨ named "lib" bs = [])
    (ho : p.outline = none ∧ out = [] ∨ q.outline = none ∧ out' = []) (e : o = out ++ out') :
    glifOf pio (fun n => named n as ++ named n bs)
      ⟨p.name, p.width.or q.width, p.unicode ++ q.unicode, p.anchors ++ q.anchors, p.images ++ q.images, p.guidelines ++ q.guidelines, p.outline.or q.outline⟩
      o = together (glifOf pio (fun n => named n as) p out) (glifOf pio (fun n => named n bs) q out') := by
  have e1 := note_apart hn
  have e2 : (match (named "lib" as ++ named "lib" bs).head? with | some e => readLib pio e | none => .none) =
      (match (match (named "lib" as).head? with | some e => readLib pio e | none => .none) with
        | .none => (match (named "lib" bs).head? with | some e => readLib pio e | none => .none)
        | l => l) := by
    rcases hl with hl | hl
    · rw [hl]; rfl
    · rw [hl, List.append_nil]
      cases (named "lib" as).head? with
      | none => rfl
      | some e => cases h : readLib pio e <;> simp [h]
  subst e
  rw [glifOf, together, Glif.mk.injEq]
  refine ⟨?_, rfl, ?_, rfl, rfl, rfl, rfl, rfl, e1, rfl, e2⟩
  · rcases ho with ⟨h1, h2⟩ | ⟨h1, h2⟩ <;> subst h2 <;> simp [h1, glifOf]
  · rcases ho with ⟨h1, h2⟩ | ⟨h1, h2⟩ <;> simp [h1, glifOf]

/-- **C146.** Where no advance, note, outline or lib is in both parts of a document, it is read exactly if both parts are, as the
glyphs of the parts put together. -/
theorem C146_parts (mid : IOF → IOF → IOF) (pio : PlistIO D) (ped : Pedantry) (root : Element) (as bs : List Node) (h : SaidApart as bs)
    (g : Glif PD D) :
    readGlif mid pio ped { root with children := as ++ bs } = .ok g ↔
      ∃ g₁ g₂ : Glif PD D, readGlif mid pio ped { root with children := as } = .ok g₁ ∧
        readGlif mid pio ped { root with children := bs } = .ok g₂ ∧ g = together g₁ g₂ := by
  have ha := h "advance" (by simp)
  have hnt := h "note" (by simp)
  have ho := h "outline" (by simp)
  have hl := h "lib" (by simp)
  have getE : ∀ cs k, ({ root with children := cs } : Element).get k = root.get k := fun _ _ => rfl
  simp only [readGlif_ok_iff, getE, named_append]
  constructor
  · rintro ⟨p, out, t1, t2, t3, h1, h2, h3, h4, h5, h6, h7, rfl⟩
    obtain ⟨w₁, w₂, a1, b1, e1⟩ := (readOpt_apart ha).1 h1
    obtain ⟨u₁, u₂, a2, b2, e2⟩ := mapM'_append_ok.1 h2
    obtain ⟨n₁, n₂, a3, b3, e3⟩ := mapM'_append_ok.1 h3
    obtain ⟨i₁, i₂, a4, b4, e4⟩ := mapM'_append_ok.1 h4
    obtain ⟨g₁, g₂, a5, b5, e5⟩ := mapM'_append_ok.1 h5
    obtain ⟨o₁, o₂, a6, b6, e6⟩ := (readOpt_apart ho).1 h6
    rcases p with ⟨pn, pw, pu, pa, pi, pg, po⟩
    simp only at e1 e2 e3 e4 e5 e6
    subst e1 e2 e3 e4 e5 e6
    rcases ho with ho | ho
    · have := readOpt_nil ho a6
      subst this
      refine ⟨_, _, ⟨⟨pn, w₁, u₁, n₁, i₁, g₁, none⟩, [], t1, t2, t3, a1, a2, a3, a4, a5, a6, rfl, rfl⟩,
        ⟨⟨pn, w₂, u₂, n₂, i₂, g₂, o₂⟩, out, t1, t2, t3, b1, b2, b3, b4, b5, b6, h7, rfl⟩, ?_⟩
      exact glifOf_together (p := ⟨pn, w₁, u₁, n₁, i₁, g₁, none⟩) (q := ⟨pn, w₂, u₂, n₂, i₂, g₂, o₂⟩) hnt hl (.inl ⟨rfl, rfl⟩) rfl
    · have := readOpt_nil ho b6
      subst this
      refine ⟨_, _, ⟨⟨pn, w₁, u₁, n₁, i₁, g₁, o₁⟩, out, t1, t2, t3, a1, a2, a3, a4, a5, a6, by simpa using h7, rfl⟩,
        ⟨⟨pn, w₂, u₂, n₂, i₂, g₂, none⟩, [], t1, t2, t3, b1, b2, b3, b4, b5, b6, rfl, rfl⟩, ?_⟩
      exact glifOf_together (p := ⟨pn, w₁, u₁, n₁, i₁, g₁, o₁⟩) (q := ⟨pn, w₂, u₂, n₂, i₂, g₂, none⟩) hnt hl (.inr ⟨rfl, rfl⟩) (List.append_nil out).symm
  · rintro ⟨_, _, ⟨p, out, t1, t2, t3, a1, a2, a3, a4, a5, a6, a7, rfl⟩, ⟨q, out', -, -, -, b1, b2, b3, b4, b5, b6, b7, rfl⟩, rfl⟩
    rcases ho' : ho with ho | ho
    · have e := readOpt_nil ho a6
      rw [e] at a7
      have : out = [] := by cases a7; rfl
      subst this
      refine ⟨⟨p.name, p.width.or q.width, p.unicode ++ q.unicode, p.anchors ++ q.anchors, p.images ++ q.images, p.guidelines ++ q.guidelines,
        p.outline.or q.outline⟩, out', t1, t2, t3, (readOpt_apart ha).2 ⟨_, _, a1, b1, rfl⟩, mapM'_append_ok.2 ⟨_, _, a2, b2, rfl⟩,
        mapM'_append_ok.2 ⟨_, _, a3, b3, rfl⟩, mapM'_append_ok.2 ⟨_, _, a4, b4, rfl⟩, mapM'_append_ok.2 ⟨_, _, a5, b5, rfl⟩,
        (readOpt_apart (.inl ho)).2 ⟨_, _, a6, b6, rfl⟩, by rw [e]; exact b7, ?_⟩
      exact (glifOf_together hnt hl (.inl ⟨e, rfl⟩) rfl).symm
    · have e := readOpt_nil ho b6
      rw [e] at b7
      have : out' = [] := by cases b7; rfl
      subst this
      refine ⟨⟨p.name, p.width.or q.width, p.unicode ++ q.unicode, p.anchors ++ q.anchors, p.images ++ q.images, p.guidelines ++ q.guidelines,
        p.outline.or q.outline⟩, out, t1, t2, t3, (readOpt_apart ha).2 ⟨_, _, a1, b1, rfl⟩, mapM'_append_ok.2 ⟨_, _, a2, b2, rfl⟩,
        mapM'_append_ok.2 ⟨_, _, a3, b3, rfl⟩, mapM'_append_ok.2 ⟨_, _, a4, b4, rfl⟩, mapM'_append_ok.2 ⟨_, _, a5, b5, rfl⟩,
        (readOpt_apart (.inr ho)).2 ⟨_, _, a6, b6, rfl⟩, by rw [e]; simpa using a7, ?_⟩
      exact (glifOf_together hnt hl (.inr ⟨e, rfl⟩) (List.append_nil out).symm).symm

/-! ## Parts of the outline -/

theorem readOutline_append {n : String} {attrs : List (String × Str)} {xs ys : List Node} {cs : List GlifContour} {ks : List GlifComponent} :
    readOutline ⟨n, attrs, xs ++ ys⟩ = .ok (cs, ks) ↔ ∃ cs₁ ks₁ cs₂ ks₂, readOutline ⟨n, attrs, xs⟩ = .ok (cs₁, ks₁) ∧
      readOutline ⟨n, attrs, ys⟩ = .ok (cs₂, ks₂) ∧ cs = cs₁ ++ cs₂ ∧ ks = ks₁ ++ ks₂ := by
  simp only [readOutline_eq, readOutlineBy, named_append]
  constructor
  · intro h
    obtain ⟨a, ha, h⟩ := bind_eq_ok.1 h
    obtain ⟨b, hb, h⟩ := bind_eq_ok.1 h
    cases h
    obtain ⟨a₁, a₂, h1, h2, rfl⟩ := mapM'_append_ok.1 ha
    obtain ⟨b₁, b₂, h3, h4, rfl⟩ := mapM'_append_ok.1 hb
    refine ⟨_, _, _, _, by rw [h1, Out.bind_ok, h3, Out.bind_ok], by rw [h2, Out.bind_ok, h4, Out.bind_ok], by rw [List.filter_append], rfl⟩
  · rintro ⟨cs₁, ks₁, cs₂, ks₂, h, h', rfl, rfl⟩
    obtain ⟨a, ha, h⟩ := bind_eq_ok.1 h
    obtain ⟨b, hb, h⟩ := bind_eq_ok.1 h
    cases h
    obtain ⟨a', ha', h⟩ := bind_eq_ok.1 h'
    obtain ⟨b', hb', h⟩ := bind_eq_ok.1 h
    cases h
    rw [mapM'_append_ok.2 ⟨_, _, ha, ha', rfl⟩, Out.bind_ok, mapM'_append_ok.2 ⟨_, _, hb, hb', rfl⟩, Out.bind_ok, List.filter_append]

theorem outlineOfGlif_append {mid : IOF → IOF → IOF} {a b : List GlifContour} {o : Outline PD} :
    outlineOfGlif mid (a ++ b) = .ok o ↔ ∃ o₁ o₂ : Outline PD, outlineOfGlif mid a = .ok o₁ ∧ outlineOfGlif mid b = .ok o₂ ∧ o = o₁ ++ o₂ := by
  unfold outlineOfGlif
  constructor
  · intro h
    obtain ⟨c, hc, h⟩ := bind_eq_ok.1 h
    cases h
    obtain ⟨c₁, c₂, h1, h2, rfl⟩ := mapM'_append_ok.1 hc
    exact ⟨_, _, by rw [h1, Out.bind_ok], by rw [h2, Out.bind_ok], by rw [List.filter_append]⟩
  · rintro ⟨o₁, o₂, h1, h2, rfl⟩
    obtain ⟨c, hc, h⟩ := bind_eq_ok.1 h1
    cases h
    obtain ⟨c', hc', h⟩ := bind_eq_ok.1 h2
    cases h
    rw [mapM'_append_ok.2 ⟨_, _, hc, hc', rfl⟩, Out.bind_ok, List.filter_append]

theorem named_withOutline (root : Element) (pre post : List Node) (attrs : List (String × Str)) (xs : List Node) (hpre : named "outline" pre = []) :
    (named "outline" (withOutline root pre post attrs xs).children).head? = some ⟨"outline", attrs, xs⟩ ∧
    ∀ n, n ≠ "outline" → named n (withOutline root pre post attrs xs).children = named n pre ++ named n post := by
  constructor
  · show (named "outline" (pre ++ _)).head? = _
    rw [named_append, hpre, List.nil_append, named_cons_elem, if_pos rfl]
    rfl
  · intro n hn
    show named n (pre ++ _) = _
    rw [named_append, named_cons_elem, if_neg (Ne.symm hn)]
    rfl

theorem glifOf_withMore {pio : PlistIO D} {kids kids₁ : String → List Element} {p p₁ : Pre} {out out₁ o₂ : Outline PD} {cs cs₁ : List GlifContour}
    {ks₁ ks₂ : List GlifComponent} (hk : ∀ n, n ≠ "outline" → kids n = kids₁ n) (ho : p.outline = some (cs, ks₁ ++ ks₂))
    (ho₁ : p₁.outline = some (cs₁, ks₁)) (hp : { p₁ with outline := p.outline } = p) (e : out = out₁ ++ o₂) :
    glifOf pio kids p out = withMore (glifOf pio kids₁ p₁ out₁) o₂ ks₂ := by
  subst e
  obtain ⟨pn, pw, pu, pa, pi, pg, po⟩ := p
  simp only [Pre.mk.injEq, and_true] at hp ho
  obtain ⟨rfl, rfl, rfl, rfl, rfl, rfl⟩ := hp
  subst ho
  have hg : (glifOf pio kids₁ p₁ out₁ : Glif PD D).outline.getD [] = out₁ := by
    unfold glifOf
    rw [ho₁]
    cases out₁ <;> cases ks₁ <;> rfl
  have hv : (glifOf pio kids₁ p₁ out₁ : Glif PD D).components.vec = ks₁ := by
    unfold glifOf
    rw [ho₁]
    rfl
  rw [withMore, hg, hv, glifOf, Glif.mk.injEq]
  refine ⟨?_, rfl, ?_, rfl, rfl, rfl, rfl, rfl, ?_, rfl, ?_⟩
  · simp only [Option.map_some, Option.getD_some]
    by_cases h1 : out₁ ++ o₂ = [] <;> by_cases h2 : ks₁ ++ ks₂ = [] <;> simp only [h1, h2] <;> simp_all
  · rfl
  · rw [hk _ (by decide)]; rfl
  · rw [hk _ (by decide)]; rfl

/-- **C146.** A document whose outline has two parts is read exactly if it is with either part alone, as the glyph with the one part
and the contours and components of the other after it. -/
theorem C146_outline (mid : IOF → IOF → IOF) (pio : PlistIO D) (ped : Pedantry) (root : Element) (pre post : List Node)
    (attrs : List (String × Str)) (xs ys : List Node) (hpre : named "outline" pre = []) (g : Glif PD D) :
    readGlif mid pio ped (withOutline root pre post attrs (xs ++ ys)) = .ok g ↔
      ∃ g₁ g₂ : Glif PD D, readGlif mid pio ped (withOutline root pre post attrs xs) = .ok g₁ ∧
        readGlif mid pio ped (withOutline root pre post attrs ys) = .ok g₂ ∧ g = withMore g₁ (g₂.outline.getD []) g₂.components.vec := by
  have getE : ∀ xs k, (withOutline root pre post attrs xs).get k = root.get k := fun _ _ => rfl
  have nameE : ∀ xs, (withOutline root pre post attrs xs).name = root.name := fun _ => rfl
  have hN := fun xs => named_withOutline root pre post attrs xs hpre
  simp only [readGlif_ok_iff, getE, nameE, (hN _).1, (hN _).2 "advance" (by decide), (hN _).2 "unicode" (by decide),
    (hN _).2 "anchor" (by decide), (hN _).2 "image" (by decide), (hN _).2 "guideline" (by decide)]
  have hkids : ∀ xs ys, ∀ n, n ≠ "outline" → (fun n => named n (withOutline root pre post attrs xs).children) n =
      (fun n => named n (withOutline root pre post attrs ys).children) n := fun xs ys n hn => by
    simp only [(hN _).2 n hn]
  have second : ∀ (p : Pre) (o : Outline PD) (cs : List GlifContour) (ks : List GlifComponent) (kids : String → List Element), p.outline = some (cs, ks) →
      (glifOf pio kids p o : Glif PD D).outline.getD [] = o ∧ (glifOf pio kids p o : Glif PD D).components.vec = ks := by
    intro p o cs ks kids hp
    unfold glifOf
    rw [hp]
    refine ⟨?_, rfl⟩
    cases o <;> cases ks <;> rfl
  have opt : ∀ (e : Element) (r : Option (List GlifContour × List GlifComponent)), readOpt readOutline (some e) = .ok r ↔
      ∃ c k, readOutline e = .ok (c, k) ∧ r = some (c, k) := by
    intro e r
    constructor
    · intro h
      obtain ⟨⟨c, k⟩, h1, h2⟩ := bind_eq_ok.1 h
      cases h2
      exact ⟨c, k, h1, rfl⟩
    · rintro ⟨c, k, h, rfl⟩
      show (readOutline e >>= _) = _
      rw [h]; rfl
  constructor
  · rintro ⟨p, out, t1, t2, t3, h1, h2, h3, h4, h5, h6, h7, rfl⟩
    obtain ⟨cs, ks, hr, hpo⟩ := (opt _ _).1 h6
    obtain ⟨cs₁, ks₁, cs₂, ks₂, r1, r2, rfl, rfl⟩ := readOutline_append.1 hr
    rw [hpo] at h7
    obtain ⟨o₁, o₂, u1, u2, rfl⟩ := outlineOfGlif_append.1 h7
    refine ⟨_, _, ⟨{ p with outline := some (cs₁, ks₁) }, o₁, t1, t2, t3, h1, h2, h3, h4, h5, (opt _ _).2 ⟨_, _, r1, rfl⟩, u1, rfl⟩,
      ⟨{ p with outline := some (cs₂, ks₂) }, o₂, t1, t2, t3, h1, h2, h3, h4, h5, (opt _ _).2 ⟨_, _, r2, rfl⟩, u2, rfl⟩, ?_⟩
    obtain ⟨s1, s2⟩ := second { p with outline := some (cs₂, ks₂) } o₂ cs₂ ks₂ (fun n => named n (withOutline root pre post attrs ys).children) rfl
    rw [s1, s2]
    exact glifOf_withMore (hkids _ _) hpo rfl (by rw [hpo]; exact congrArg _ hpo.symm) rfl
  · rintro ⟨_, _, ⟨p, o₁, t1, t2, t3, h1, h2, h3, h4, h5, h6, h7, rfl⟩, ⟨q, o₂, -, -, t3', b1, b2, b3, b4, b5, b6, b7, rfl⟩, rfl⟩
    obtain ⟨cs₁, ks₁, r1, e1⟩ := (opt _ _).1 h6
    obtain ⟨cs₂, ks₂, r2, e2⟩ := (opt _ _).1 b6
    rw [e1] at h7
    rw [e2] at b7
    obtain ⟨s1, s2⟩ := second q o₂ cs₂ ks₂ (fun n => named n (withOutline root pre post attrs ys).children) e2
    rw [s1, s2]
    refine ⟨{ p with outline := some (cs₁ ++ cs₂, ks₁ ++ ks₂) }, o₁ ++ o₂, t1, t2, t3, h1, h2, h3, h4, h5,
      (opt _ _).2 ⟨_, _, readOutline_append.2 ⟨_, _, _, _, r1, r2, rfl, rfl⟩, rfl⟩, outlineOfGlif_append.2 ⟨_, _, h7, b7, rfl⟩, ?_⟩
    exact (glifOf_withMore (hkids _ _) rfl e1 rfl rfl).symm

theorem withMore_outline (g : Glif PD D) (o : Outline PD) (ks : List GlifComponent) : (withMore g o ks).outline.getD [] = g.outline.getD [] ++ o := by
  unfold withMore
  by_cases h : g.outline.getD [] ++ o = [] ∧ g.components.vec ++ ks = []
  · simp only [if_pos h]; exact h.1.symm
  · simp only [if_neg h, Option.getD_some]

theorem withMore_withMore (g : Glif PD D) (o o' : Outline PD) (ks ks' : List GlifComponent) :
    withMore (withMore g o ks) o' ks' = withMore g (o ++ o') (ks ++ ks') := by
  have h := withMore_outline g o ks
  have hv : (withMore g o ks).components.vec = g.components.vec ++ ks := rfl
  rw [withMore, h, hv]
  simp only [withMore, List.append_assoc]

/-- An outline without anything in it. -/
theorem read_emptyOutline {mid : IOF → IOF → IOF} {pio : PlistIO D} {ped : Pedantry} {root : Element} {pre post : List Node}
    {attrs : List (String × Str)} (hpre : named "outline" pre = []) {g : Glif PD D}
    (h : readGlif mid pio ped (withOutline root pre post attrs []) = .ok g) : g.outline = none ∧ g.components.vec = [] := by
  obtain ⟨p, out, -, -, -, -, -, -, -, -, h6, h7, rfl⟩ := (readGlif_ok_iff mid pio ped _ g).1 h
  rw [(named_withOutline root pre post attrs [] hpre).1] at h6
  have e : readOutline ⟨"outline", attrs, []⟩ = .ok ([], []) := by rw [readOutline_eq]; rfl
  rw [readOpt, e, Out.bind_ok] at h6
  have : p.outline = some ([], []) := (Out.ok.inj h6).symm
  rw [this] at h7
  have ho : out = [] := by cases h7; rfl
  unfold glifOf
  rw [this, ho]
  exact ⟨rfl, rfl⟩

/-- **C146.** A document is read exactly if it is with each thing in the outline alone, and its contours and components are those of
the documents with one, in order: what is read of a contour or component does not depend on the others. -/
theorem C146_each (mid : IOF → IOF → IOF) (pio : PlistIO D) (ped : Pedantry) (root : Element) (pre post : List Node)
    (attrs : List (String × Str)) (xs : List Node) (hpre : named "outline" pre = []) (g : Glif PD D) :
    readGlif mid pio ped (withOutline root pre post attrs xs) = .ok g ↔
      ∃ (g₀ : Glif PD D) (gs : List (Glif PD D)), readGlif mid pio ped (withOutline root pre post attrs []) = .ok g₀ ∧
        List.Forall₂ (fun x gx => readGlif mid pio ped (withOutline root pre post attrs [x]) = .ok gx) xs gs ∧
        g = withMore g₀ (gs.flatMap fun gx => gx.outline.getD []) (gs.flatMap fun gx => gx.components.vec) := by
  have frame : ∀ x, ∀ g₀ gx : Glif PD D, readGlif mid pio ped (withOutline root pre post attrs []) = .ok g₀ →
      readGlif mid pio ped (withOutline root pre post attrs [x]) = .ok gx → gx = withMore g₀ (gx.outline.getD []) gx.components.vec := by
    intro x g₀ gx h0 hx
    obtain ⟨a, b, h1, h2, h3⟩ := (C146_outline mid pio ped root pre post attrs [] [x] hpre gx).1 hx
    rw [h0] at h1; cases h1
    rw [hx] at h2; cases h2
    exact h3
  induction xs generalizing g with
  | nil =>
    constructor
    · intro h
      obtain ⟨h1, h2⟩ := read_emptyOutline hpre h
      refine ⟨g, [], h, .nil, ?_⟩
      rcases g with ⟨o, _, ⟨_, ks, _⟩, _⟩
      cases h1; cases h2; rfl
    · rintro ⟨g₀, gs, h, hn, rfl⟩
      cases hn
      obtain ⟨h1, h2⟩ := read_emptyOutline hpre h
      rw [h]
      rcases g₀ with ⟨o, _, ⟨_, ks, _⟩, _⟩
      cases h1; cases h2; rfl
  | cons x xs ih =>
    rw [show x :: xs = [x] ++ xs from rfl, C146_outline mid pio ped root pre post attrs [x] xs hpre g]
    constructor
    · rintro ⟨gx, gr, hx, hr, rfl⟩
      obtain ⟨g₀, gs, h0, hs, rfl⟩ := (ih gr).1 hr
      refine ⟨g₀, gx :: gs, h0, .cons hx hs, ?_⟩
      obtain ⟨e1, e2⟩ := read_emptyOutline hpre h0
      have hv : (withMore g₀ (gs.flatMap fun gx => gx.outline.getD []) (gs.flatMap fun gx => gx.components.vec)).components.vec =
        g₀.components.vec ++ gs.flatMap fun gx => gx.components.vec := rfl
      rw [withMore_outline, hv, e1, e2, Option.getD_none, List.nil_append, List.nil_append]
      conv => lhs; rw [frame x g₀ gx h0 hx]
      rw [withMore_withMore]
      rfl
    · rintro ⟨g₀, gs, h0, hs, rfl⟩
      cases hs with
      | @cons _ gx _ gs hx hs =>
        refine ⟨gx, _, hx, (ih _).2 ⟨g₀, gs, h0, hs, rfl⟩, ?_⟩
        obtain ⟨e1, e2⟩ := read_emptyOutline hpre h0
        have hv : (withMore g₀ (gs.flatMap fun gx => gx.outline.getD []) (gs.flatMap fun gx => gx.components.vec)).components.vec =
          g₀.components.vec ++ gs.flatMap fun gx => gx.components.vec := rfl
        rw [withMore_outline, hv, e1, e2, Option.getD_none, List.nil_append, List.nil_append]
        conv => rhs; rw [frame x g₀ gx h0 hx]
        rw [withMore_withMore]
        rfl

namespace Sample
/-- A glyph without anything in it. -/
def bareRoot : Element := ⟨"glyph", [("name", "a".toList), ("format", "2".toList)], []⟩
/-- An advance width and a character. -/
def partA : List Node := [.elem "advance" [("width", "500".toList)] [], .elem "unicode" [("hex", "0041".toList)] []]
/-- Another character, an anchor, and an outline with a contour. -/
def partB : List Node := [.elem "unicode" [("hex", "0061".toList)] [],
  .elem "anchor" [("x", "1".toList), ("y", "2".toList), ("name", "top".toList)] [],
  .elem "outline" [] [.elem "contour" [] [.elem "point" [("x", "0".toList), ("y", "1".toList), ("type", "line".toList)] [],
    .elem "point" [("x", "4".toList), ("y", "1".toList), ("type", "line".toList)] []]]]
/-- A contour and a component of an outline. -/
def twoThings : List Node := [.elem "component" [("base", "b".toList)] [], .elem "contour" [] [
    .elem "point" [("x", "0".toList), ("y", "1".toList), ("type", "line".toList)] [],
    .elem "point" [("x", "4".toList), ("y", "1".toList), ("type", "line".toList)] []]]
end Sample

/-- Two parts that both have a character, with the document of both and those of either. -/
example : let mid : IOF → IOF → IOF := fun a _ => a
    let pio : PlistIO Unit := ⟨fun _ => none, fun _ => none⟩
    SaidApart Sample.partA Sample.partB ∧
    (match readGlif (PD := Unit) mid pio {} { Sample.bareRoot with children := Sample.partA ++ Sample.partB } with
      | .ok g => some (g.unicode.length, g.anchors.length, (g.outline.getD []).map List.length, g.width.isSome)
      | _ => none) = some (2, 1, [2], true) ∧
    (match readGlif (PD := Unit) mid pio {} { Sample.bareRoot with children := Sample.partA } with
      | .ok g => some (g.unicode.length, g.anchors.length, (g.outline.getD []).map List.length, g.width.isSome)
      | _ => none) = some (1, 0, [], true) := by
  refine ⟨?_, by decide +kernel, by decide +kernel⟩
  intro n hn
  simp only [List.mem_cons, List.not_mem_nil, or_false] at hn
  rcases hn with rfl | rfl | rfl | rfl <;> simp [Sample.partA, Sample.partB, named]

/-- An outline with a component and a contour. -/
example : let mid : IOF → IOF → IOF := fun a _ => a
    let pio : PlistIO Unit := ⟨fun _ => none, fun _ => none⟩
    named "outline" Sample.partA = [] ∧
    (match readGlif (PD := Unit) mid pio {} (withOutline Sample.bareRoot Sample.partA [] [] Sample.twoThings) with
      | .ok g => some (g.components.vec.length, (g.outline.getD []).map List.length)
      | _ => none) = some (1, [2]) ∧
    Sample.twoThings.map (fun x => match readGlif (PD := Unit) mid pio {} (withOutline Sample.bareRoot Sample.partA [] [] [x]) with
      | .ok g => some (g.components.vec.length, (g.outline.getD []).map List.length)
      | _ => none) = [some (1, []), some (0, [2])] :=
  ⟨rfl, by decide +kernel, by decide +kernel⟩

end GP
