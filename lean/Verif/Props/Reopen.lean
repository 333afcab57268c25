import Verif.Spec.Reopen
import Verif.Props.LibFile
import Verif.Props.ReadPoints
import Verif.Props.Settling
import Verif.Props.ResaveExact
/-!
# C142: a file that can be opened can be saved and opened again
-/
open Fl Fl.Text
namespace GP
open Spec Plist
variable {PD D L : Type}

/-! ## Names of points -/

theorem modLast_all {α : Type} {P : α → Prop} {f : α → α} (hf : ∀ a, P a → P (f a)) {l : List α} (h : ∀ a ∈ l, P a) :
    ∀ a ∈ modLast f l, P a := by
  induction l using List.reverseRecOn with
  | nil => exact h
  | append_singleton l a _ =>
    rw [modLast_append]
    intro b hb
    rcases List.mem_append.1 hb with hb | hb
    · exact h b (by simp [hb])
    · rw [List.mem_singleton.1 hb]; exact hf a (h a (by simp))

theorem cubicStep_names {P : Option Str → Prop} {st st' : Contour PD × List GlifPoint} {gp : GlifPoint} (h : cubicStep st gp = .ok st')
    (hs : ∀ p ∈ st.1, P p.name) (hg : P gp.name) : ∀ p ∈ st'.1, P p.name := by
  unfold cubicStep at h
  split at h
  case h_6 => cases h; exact hs
  case h_5 => cases h
  case h_1 => cases h; exact hs
  all_goals
    cases h
    intro p hp
    rcases List.mem_append.1 hp with hp | hp
    · exact modLast_all (P := fun p : Point PD => P p.name) (f := fun p : Point PD => { p with a := Handle.ofGlifPoint st.2.head? })
        (fun _ h => h) hs p hp
    · rw [List.mem_singleton.1 hp]; exact hg

theorem cubicFold_names {P : Option Str → Prop} {gc : GlifContour} (hg : ∀ g ∈ gc, P g.name) :
    ∀ {st st' : Contour PD × List GlifPoint}, foldR cubicStep st gc = .ok st' → (∀ p ∈ st.1, P p.name) → ∀ p ∈ st'.1, P p.name := by
  induction gc with
  | nil => intro st st' h hs; cases h; exact hs
  | cons g gc ih =>
    intro st st' h hs
    obtain ⟨s1, h1, h2⟩ := bind_eq_ok.1 h
    exact ih (fun g hg' => hg g (by simp [hg'])) h2 (cubicStep_names h1 hs (hg g (by simp)))

theorem cubicContour_names {P : Option Str → Prop} {gc : GlifContour} {c : Contour PD} (hg : ∀ g ∈ gc, P g.name)
    (h : cubicContour gc = .ok c) : ∀ p ∈ c, P p.name := by
  unfold cubicContour at h
  obtain ⟨⟨k, stack⟩, h1, h⟩ := bind_eq_ok.1 h
  have hk := modLast_all (P := fun p : Point PD => P p.name) (f := fun p : Point PD => { p with a := Handle.ofGlifPoint stack.head? }) (fun _ h => h)
    (cubicFold_names hg h1 (by simp))
  simp only [] at h
  generalize modLast (fun p : Point PD => { p with a := Handle.ofGlifPoint stack.head? }) k = m at h hk
  have hlone : ∀ {n : Contour PD}, (∀ p ∈ n, P p.name) →
      (match n with
        | [p] => if p.ptype = .move then .ok [] else .ok [p]
        | c => .ok c : R (Contour PD)) = .ok c → ∀ p ∈ c, P p.name := by
    intro n hn h
    split at h
    · split at h
      · cases h; simp
      · cases h; exact hn
    · cases h; exact hn
  cases m with
  | nil => exact hlone (n := []) (by simp) h
  | cons q m =>
    simp only [] at h
    refine hlone ?_ h
    split
    · intro p hp
      rcases List.mem_cons.1 hp with rfl | hp
      · exact hk q (by simp)
      · exact hk p (by simp [hp])
    · exact hk

theorem quadStep_names {P : Option Str → Prop} (mid : IOF → IOF → IOF) {st : Contour PD × List GlifPoint} {gp : GlifPoint}
    (hs : (∀ p ∈ st.1, P p.name) ∧ ∀ g ∈ st.2, P g.name) (hg : P gp.name) :
    (∀ p ∈ (quadStep mid st gp).1, P p.name) ∧ ∀ g ∈ (quadStep mid st gp).2, P g.name := by
  have hst : ∀ g ∈ (if gp.ptype = .offcurve then st.2 ++ [gp] else st.2), P g.name := by
    split
    · intro g h
      rcases List.mem_append.1 h with h | h
      · exact hs.2 g h
      · rw [List.mem_singleton.1 h]; exact hg
    · exact hs.2
  unfold quadStep
  simp only []
  generalize (if gp.ptype = .offcurve then st.2 ++ [gp] else st.2) = stack at hst
  have hadd : ∀ l : Contour PD, (∀ p ∈ l, P p.name) → ∀ p ∈ st.1 ++ l, P p.name := by
    intro l hl p hp
    rcases List.mem_append.1 hp with hp | hp
    · exact hs.1 p hp
    · exact hl p hp
  split
  · next h1 h2 =>
    refine ⟨hadd _ fun p hp => ?_, fun g hg => hst g (by simp_all)⟩
    rcases List.mem_cons.1 hp with rfl | hp
    · exact hst h1 (by simp)
    · rw [List.mem_singleton.1 hp]; exact hg
  · split
    · split
      · next _ h rest _ =>
        refine ⟨hadd _ fun p hp => ?_, fun g hg => hst g (by simp [hg])⟩
        rcases List.mem_cons.1 hp with rfl | hp
        · exact hst h (by simp)
        · rw [List.mem_singleton.1 hp]; exact hg
      · exact ⟨hadd _ fun p hp => by rw [List.mem_singleton.1 hp]; exact hg, by simp⟩
    · exact ⟨hs.1, hst⟩

theorem quadraticContour_names {P : Option Str → Prop} (hn : P none) (mid : IOF → IOF → IOF) {gc : GlifContour} (hg : ∀ g ∈ gc, P g.name) :
    ∀ p ∈ (quadraticContour mid gc : Contour PD), P p.name := by
  have hf : ∀ (l : GlifContour) (st : Contour PD × List GlifPoint), (∀ g ∈ l, P g.name) → ((∀ p ∈ st.1, P p.name) ∧ ∀ g ∈ st.2, P g.name) →
      (∀ p ∈ (l.foldl (quadStep mid) st).1, P p.name) ∧ ∀ g ∈ (l.foldl (quadStep mid) st).2, P g.name := by
    intro l
    induction l with
    | nil => exact fun st _ h => h
    | cons g l ih => exact fun st hl h => ih _ (fun x hx => hl x (by simp [hx])) (quadStep_names mid h (hl g (by simp)))
  have := hf gc ([], []) hg ⟨by simp, by simp⟩
  unfold quadraticContour
  simp only []
  split
  · next h1 _ h2 _ e1 e2 =>
    intro p hp
    rcases List.mem_append.1 hp with hp | hp
    · exact this.1 p hp
    · rcases List.mem_cons.1 hp with rfl | hp
      · exact this.2 h1 (by rw [e1]; simp)
      · rw [List.mem_singleton.1 hp]; exact hn
  · exact this.1

/-- The names of the points of a contour are those in the file. -/
theorem contour_names {P : Option Str → Prop} (hn : P none) (mid : IOF → IOF → IOF) {gc : GlifContour} {c : Contour PD} (hg : ∀ g ∈ gc, P g.name)
    (h : contourOfGlif mid gc = .ok c) : ∀ p ∈ c, P p.name := by
  unfold contourOfGlif at h
  split at h
  · cases h
  · split at h
    all_goals first
      | exact cubicContour_names hg h
      | (cases h; exact quadraticContour_names hn mid hg)
      | (cases h; simp)

/-! ## The characters of what is read -/

theorem named_mem {n : String} {cs : List Node} {e : Element} (h : e ∈ named n cs) : e.node ∈ cs := by
  unfold named at h
  obtain ⟨c, hc, he⟩ := List.mem_filterMap.1 h
  split at he
  · split at he
    · cases he; exact hc
    · cases he
  · cases he

theorem told_named {e k : Element} {n : String} (h : Tellable e.node) (hk : k ∈ named n e.children) : Tellable k.node :=
  tellable_children h _ (named_mem hk)

theorem told_get {e : Element} (h : Tellable e.node) {k : String} {v : Str} (hv : e.get k = some v) : ∀ c ∈ v, XmlChar c := by
  have : ∃ a ∈ e.attrs, a.2 = v := by
    unfold Element.get at hv
    generalize e.attrs = as at hv
    induction as with
    | nil => cases hv
    | cons a as ih =>
      obtain ⟨x, y⟩ := a
      rw [List.lookup_cons] at hv
      split at hv
      · cases hv; exact ⟨(x, v), by simp, rfl⟩
      · obtain ⟨a, ha, hr⟩ := ih hv
        exact ⟨a, by simp [ha], hr⟩
  obtain ⟨a, ha, rfl⟩ := this
  cases h with
  | elem _ _ _ _ hc _ _ => exact (hc.2 a ha).2
  | same _ _ he _ => exact absurd rfl (he _ _ _)

theorem told_texts {e : Element} (h : Tellable e.node) : ∀ s ∈ texts e.children, ∀ c ∈ s, XmlChar c := by
  intro s hs
  obtain ⟨n, hn, he⟩ := List.mem_filterMap.1 hs
  have ht := tellable_children h n hn
  cases n with
  | text t =>
    cases he
    cases ht with
    | text _ h _ => exact h
    | same _ h _ _ => cases h with | text _ h _ => exact fun c hc => (h c hc).1
  | cdata t =>
    cases he
    cases ht with
    | same _ h _ _ => cases h with | cdata _ h _ => exact fun c hc => (h c hc).1
  | _ => cases he

/-- Only characters of XML. -/
def XmlOpt (o : Option Str) : Prop := ∀ s, o = some s → ∀ c ∈ s, XmlChar c

theorem told_points {e : Element} (h : Tellable e.node) {gc : GlifContour} (hr : readContour e = .ok gc) : ∀ g ∈ gc, XmlOpt g.name := by
  rw [readContour_eq] at hr
  intro g hg
  obtain ⟨p, hp, hpg⟩ := forall₂_mem_right ((mapM'_iff (rel := fun a b => readPoint a = .ok b) (fun _ _ => Iff.rfl) _ _).1 hr) hg
  have := (readPoint_says hpg).2.2.2.1
  rw [this]
  exact fun s hs => told_get (told_named h hp) hs

/-- The contours of a glyph that was read are not empty, and the names of their points have only characters of XML. -/
theorem told_outline (mid : IOF → IOF → IOF) (pio : PlistIO D) (ped : Pedantry) {root : Element} {g : Glif PD D} (ht : Tellable root.node)
    (h : readGlif mid pio ped root = .ok g) : ∀ o, g.outline = some o → ∀ c ∈ o, c ≠ [] ∧ ∀ p ∈ c, XmlOpt p.name := by
  rw [readGlif_pre] at h
  obtain ⟨p, hp, h⟩ := bind_eq_ok.1 h
  obtain ⟨o, ho, h⟩ := bind_eq_ok.1 h
  rw [Out.ok.injEq] at h
  have hpo := (pre_parts hp).2.2.2.2.2.2
  have hgcs : ∀ gc ∈ (p.outline.map Prod.fst).getD [], ∀ x ∈ gc, XmlOpt x.name := by
    unfold readOpt at hpo
    cases he : (named "outline" root.children).head? with
    | none => rw [he] at hpo; rw [← Out.ok.inj hpo]; simp
    | some e =>
      rw [he] at hpo
      simp only [] at hpo
      obtain ⟨a, ha, hpo⟩ := bind_eq_ok.1 hpo
      simp only [Out.ok.injEq] at hpo
      rw [readOutline_eq] at ha
      unfold readOutlineBy at ha
      obtain ⟨cs, hcs, ha⟩ := bind_eq_ok.1 ha
      obtain ⟨comps, _, ha⟩ := bind_eq_ok.1 ha
      cases ha
      rw [← hpo]
      intro gc hgc
      have hm : gc ∈ cs := (List.mem_filter.1 hgc).1
      obtain ⟨k, hk, hkg⟩ := forall₂_mem_right ((mapM'_iff (rel := fun a b => readContour a = .ok b) (fun _ _ => Iff.rfl) _ _).1 hcs) hm
      exact told_points (told_named (told_named ht (List.mem_of_head? he)) hk) hkg
  unfold outlineOfGlif at ho
  obtain ⟨cs, hcs, ho⟩ := bind_eq_ok.1 ho
  cases ho
  intro o hgo c hc
  have hco : c ∈ cs.filter fun c => !c.isEmpty := by
    rw [← h] at hgo
    unfold glifOf at hgo
    simp only [] at hgo
    split at hgo
    · cases hgo; exact hc
    · cases hgo
  obtain ⟨hm, hne⟩ := List.mem_filter.1 hco
  obtain ⟨gc, hgc, hr⟩ := forall₂_mem_right ((mapM'_iff (rel := fun a b => contourOfGlif mid a = .ok b) (fun _ _ => Iff.rfl) _ _).1 hcs) hm
  refine ⟨(by rintro rfl; cases hne), contour_names (P := XmlOpt) (fun s h => (nomatch h)) mid (hgcs gc hgc) hr⟩

/-- All characters of a glyph that was read are characters of XML. -/
theorem told_chars (mid : IOF → IOF → IOF) (pio : PlistIO D) (ped : Pedantry) {root : Element} {g : Glif PD D} (ht : Tellable root.node)
    (h : readGlif mid pio ped root = .ok g) : ∀ c, HasChar c g → XmlChar c := by
  have hs := C85_says mid pio ped root g h
  intro c hc
  cases hc with
  | name h => exact told_get ht hs.name c h
  | note n hn hc =>
    cases he : (named "note" root.children).head? with
    | none => rw [hs.noNote he] at hn; cases hn
    | some e =>
      rcases hs.note e he with ⟨_, h⟩ | ⟨_, h⟩
      · rw [h] at hn; cases hn
      · rw [h] at hn
        cases hn
        obtain ⟨s, hs, hc⟩ := List.mem_flatten.1 hc
        exact told_texts (told_named ht (List.mem_of_head? he)) s hs c hc
  | point o k p s ho hk hp _ hs h' => exact (told_outline mid pio ped ht h o ho k hk).2 p hp s hs c h'
  | anchor a s ha hcs hc =>
    obtain ⟨e, he, hr⟩ := forall₂_mem_right hs.anchors ha
    exact told_get (told_named ht he) ((hr.2.1 s).1 hcs).1 c hc
  | component k hk hc =>
    obtain ⟨e, he, hr⟩ := forall₂_mem_right hs.components hk
    have hte : Tellable e.node := by
      unfold componentsOf at he
      split at he
      · next o ho => exact told_named (told_named ht (List.mem_of_head? ho)) he
      · cases he
    rcases hc with hc | ⟨s, hcs, hc⟩
    · exact told_get hte hr.1 c hc
    · exact told_get hte (hr.2.2.1 ▸ hcs) c hc
  | image i hi hc =>
    obtain ⟨e, he, hr⟩ := forall₂_mem_right hs.images hi
    rcases hc with hc | ⟨s, hcs, hc⟩
    · exact told_get (told_named ht he) hr.1 c hc
    · exact told_get (told_named ht he) (hr.2.2.1 ▸ hcs) c hc
  | guideline l s hl hcs hc =>
    obtain ⟨e, he, hr⟩ := forall₂_mem_right hs.guidelines hl
    rcases hcs with hcs | hcs
    · exact told_get (told_named ht he) (hr.2.2.2.2.1 ▸ hcs) c hc
    · exact told_get (told_named ht he) (hr.2.2.2.2.2 ▸ hcs) c hc

theorem read_document {mid : IOF → IOF → IOF} {pio : PlistIO D} {lay' : XmlText.Layout} {ped : Pedantry} {t : Str} {g : Glif PD D}
    (h : readText mid pio (XmlText.io lay') ped t = .ok g) : ∃ root, Tellable root.node ∧ readGlif mid pio ped root = .ok g := by
  unfold readText at h
  obtain ⟨root, hr, h⟩ := bind_eq_ok.1 h
  have hp : XmlText.parse t = some root := by
    rw [show (XmlText.io lay').parse t = XmlText.parse t from rfl] at hr
    cases hq : XmlText.parse t with
    | none => rw [hq] at hr; cases hr
    | some r => rw [hq] at hr; cases hr; rfl
  obtain ⟨_, _, _, _, hsp, _, _⟩ := (C140_exact root t).1 hp
  exact ⟨root, spells_tellable hsp, h⟩

/-- What was read can be saved, but for quadratic curves. -/
theorem read_saveable {mid : IOF → IOF → IOF} {pio : PlistIO D} {lay' : XmlText.Layout} {ped : Pedantry} {t : Str} {g : Glif PD D}
    (h : readText mid pio (XmlText.io lay') ped t = .ok g) (hq : ∀ o, g.outline = some o → ∀ c ∈ o, Cubic c) :
    Saveable pio { g with lib := .none } ∧ ∀ c, HasChar c g → XmlChar c := by
  obtain ⟨root, ht, h⟩ := read_document h
  have hs := C85_says mid pio ped root g h
  refine ⟨⟨fun o ho c hc => ⟨(told_outline mid pio ped ht h o ho c hc).1, hq o ho c hc⟩, fun w hw => ?_, fun a ha s has => ?_, trivial⟩,
    told_chars mid pio ped ht h⟩
  · exact read_width h w hw
  · obtain ⟨e, _, hr⟩ := forall₂_mem_right hs.anchors ha
    exact ((hr.2.1 s).1 has).2

/-- The lib of what was read. -/
theorem reopened_lib {mid : IOF → IOF → IOF} {lio : LeafIO L} {lay lay' : XmlText.Layout} {ped : Pedantry} {t : Str} {g : Glif PD (Dict L)}
    (h : readText mid (io lio lay) (XmlText.io lay') ped t = .ok g) :
    g.lib = .none ∨ ∃ d, g.lib = .plist d ∧ Holdable (.dict d) ∧ ∀ c, Utters c (.dict d) → XmlChar c ∧ c ≠ '\r' := by
  obtain ⟨root, hs, h0, h1⟩ := C141_lib mid lio lay lay' ped t g h
  cases he : (named "lib" root.children).head? with
  | none => exact .inl (h0 he)
  | some e =>
    obtain ⟨g1, g2, g3⟩ := h1 e he
    cases hl : g.lib with
    | none => exact .inl rfl
    | xml x => exact absurd hl (g3 x)
    | plist d =>
      obtain ⟨c, hm, hv⟩ := (g1 d).1 hl
      obtain ⟨_, s, _, _, hsp, _, _⟩ := hs
      have ht : Tellable e.node := tellable_children (spells_tellable hsp) _ (named_child he)
      have hc : c ∈ e.children := (matter_mem (hm ▸ List.mem_singleton.2 rfl)).1
      obtain ⟨f1, f2, _⟩ := says_facts hv (tellable_children ht c hc)
      exact .inr ⟨d, rfl, f1, f2⟩

/-! ## Theorems -/

/-- **C142.** A glyph of lines and cubic curves that was read from any file, by any settings, can be saved, and what was saved
can be read.  Everything comes back but tabs in attributes, carriage returns in the note, a note of white space, and what
does not come back of the lib. -/
theorem C142_partial (mid : IOF → IOF → IOF) {lio : LeafIO L} (hl : LeafLaws lio) (lay lay' : XmlText.Layout) (hy : Lays lay) (hy' : Lays lay')
    (ped : Pedantry) (t : Str) (g : Glif PD (Dict L)) (h : readText mid (io lio lay) (XmlText.io lay') ped t = .ok g)
    (hq : ∀ o, g.outline = some o → ∀ c ∈ o, Cubic c) :
    ∃ g' : Glif PD (Dict L), ReopensAs mid (io lio lay) (XmlText.io lay') g g' ∧
      ((g.lib = .none ∧ Resaved (spoken g) g') ∨
        ∃ d d', g.lib = .plist d ∧ ComesBack (io lio lay) d d' ∧ Audible (.dict d') ∧ Resaved (spoken { g with lib := .plist d' }) g') := by
  obtain ⟨hs, hc⟩ := read_saveable h hq
  rcases reopened_lib h with hn | ⟨d, hd, f1, f2⟩
  · have hs' : Saveable (io lio lay) g := ⟨hs.contours, hs.width, hs.classes, by rw [hn]; trivial⟩
    obtain ⟨s, g', hw, hr, hres⟩ := C97_resaved mid (io lio lay) lay' hy' g hs' hc
      ⟨fun d h => (nomatch hn.symm.trans h), fun e h => (nomatch hn.symm.trans h)⟩
    exact ⟨g', ⟨s, hw, hr⟩, .inl ⟨hn, hres⟩⟩
  · obtain ⟨d', hd', -, -, -, ha⟩ := C127_twice hl lay hy d (holdable_printable f1 f2)
    obtain ⟨s, g', hw, hr, hres⟩ := lib_comes mid hl lay lay' hy hy' g d d' hs hc f1 (fun c h => (f2 c h).1) hd'
    have e : ({ g with lib := .plist d } : Glif PD (Dict L)) = g := by rw [← hd]
    rw [e] at hw
    exact ⟨g', ⟨s, hw, hr⟩, .inr ⟨d, d', hd, hd', ha, hres⟩⟩

theorem reopens_unique {mid : IOF → IOF → IOF} {pio : PlistIO (Dict L)} {xml : XmlIO} {g g' g'' : Glif PD (Dict L)}
    (h : ReopensAs mid pio xml g g') (h' : ReopensAs mid pio xml g g'') : g' = g'' := by
  obtain ⟨s, hw, hr⟩ := h
  obtain ⟨s', hw', hr'⟩ := h'
  rw [hw] at hw'
  cases hw'
  rw [hr] at hr'
  cases hr'
  rfl

/-- **C142.** It comes back as it is exactly if there is none of this in it. -/
theorem C142_exact (mid : IOF → IOF → IOF) {lio : LeafIO L} (hl : LeafLaws lio) (lay lay' : XmlText.Layout) (hy : Lays lay) (hy' : Lays lay')
    (ped : Pedantry) (t : Str) (g : Glif PD (Dict L)) (h : readText mid (io lio lay) (XmlText.io lay') ped t = .ok g)
    (hq : ∀ o, g.outline = some o → ∀ c ∈ o, Cubic c) :
    (∃ g', ReopensAs mid (io lio lay) (XmlText.io lay') g g' ∧ Resaved g g') ↔ AsSpelled g := by
  obtain ⟨hs, hc⟩ := read_saveable h hq
  rcases reopened_lib h with hn | ⟨d, hd, f1, f2⟩
  · have hs' : Saveable (io lio lay) g := ⟨hs.contours, hs.width, hs.classes, by rw [hn]; trivial⟩
    have := C97_exact mid (io lio lay) lay' hy' g hs' ⟨fun d h => (nomatch hn.symm.trans h), fun e h => (nomatch hn.symm.trans h)⟩
    constructor
    · rintro ⟨g', ⟨s, hw, hr⟩, hres⟩
      exact ⟨this.1 ⟨s, g', hw, hr, hres⟩, fun d h => by rw [hn] at h; cases h⟩
    · intro ha
      obtain ⟨s, g', hw, hr, hres⟩ := this.2 ha.glyph
      exact ⟨g', ⟨s, hw, hr⟩, hres⟩
  · have e : ({ g with lib := .plist d } : Glif PD (Dict L)) = g := by rw [← hd]
    have := C127_glyphs mid hl lay lay' hy hy' g d hs f1
    rw [e] at this
    constructor
    · rintro ⟨g', ⟨s, hw, hr⟩, hres⟩
      have := this.1 ⟨s, g', hw, hr, hres⟩
      exact ⟨this.1, fun d' h' => by rw [hd] at h'; cases h'; exact this.2.1⟩
    · intro ha
      obtain ⟨s, g', hw, hr, hres⟩ := this.2 ⟨ha.glyph, ha.lib d hd, f2⟩
      exact ⟨g', ⟨s, hw, hr⟩, hres⟩

/-! ## Further saves -/

theorem unix_no_cr (s : Str) : '\r' ∉ unix s := by rw [unix_lines]; exact lines_cr s

theorem unix_not_blank {s : Str} (h : Blank (unix s)) : Blank s := by
  induction s using unix.induct with
  | case1 s ih =>
    rw [unix] at h
    intro c hc
    rcases List.mem_cons.1 hc with rfl | hc
    · simp
    · rcases List.mem_cons.1 hc with rfl | hc
      · simp
      · exact ih (fun c hc => h c (by simp [hc])) c hc
  | case2 c s hne ih =>
    rw [unix] at h
    · intro d hd
      rcases List.mem_cons.1 hd with rfl | hd
      · by_cases hr : d = '\r'
        · simp [hr]
        · exact h d (by simp [hr])
      · exact ih (fun c hc => h c (by simp [hc])) d hd
    · exact hne
  | case3 => exact fun c hc => (nomatch hc)

theorem opt_untab {o : Option Str} : ∀ s, o.map untab = some s → '\t' ∉ s := by
  intro s h
  cases o with
  | none => cases h
  | some x => cases h; exact untab_no_tab x

/-- What came back is changed no more. -/
theorem resaved_audible {g g' : Glif PD D} (h : Resaved (spoken g) g') (hc : ∀ c, HasChar c g' → XmlChar c) : AudibleGlyph g' := by
  refine ⟨hc, ?_, ?_, ?_, ?_, ?_, ?_, ?_⟩
  · rw [h.name]; exact untab_no_tab _
  · intro o ho c hcm _ p hp
    have := h.outline
    rw [ho] at this
    simp only [Option.getD_some] at this
    have e : (spoken g).outline.getD [] = (g.outline.getD []).map fun c => c.map spokenPoint := by
      unfold spoken; cases g.outline <;> rfl
    rw [e, resaved_spoken] at this
    rw [this] at hcm
    obtain ⟨k, -, rfl⟩ := List.mem_map.1 hcm
    obtain ⟨q, -, rfl⟩ := List.mem_map.1 hp
    exact opt_untab
  · intro a ha
    obtain ⟨b, hb, hr⟩ := forall₂_mem_right h.anchors ha
    obtain ⟨x, -, rfl⟩ := List.mem_map.1 hb
    rw [hr.2.2.1]; exact opt_untab
  · intro a ha
    obtain ⟨b, hb, hr⟩ := forall₂_mem_right h.components ha
    obtain ⟨x, -, rfl⟩ := List.mem_map.1 hb
    rw [hr.1, hr.2.1]; exact ⟨untab_no_tab _, opt_untab⟩
  · intro a ha
    obtain ⟨b, hb, hr⟩ := forall₂_mem_right h.images ha
    obtain ⟨x, -, rfl⟩ := List.mem_map.1 hb
    rw [hr.1, hr.2.1]; exact ⟨untab_no_tab _, opt_untab⟩
  · intro a ha
    obtain ⟨b, hb, hr⟩ := forall₂_mem_right h.guidelines ha
    obtain ⟨x, -, rfl⟩ := List.mem_map.1 hb
    rw [hr.2.2.1, hr.2.2.2.1]
    rintro s (hs | hs)
    · exact opt_untab s hs
    · exact opt_untab s hs
  · intro n hn
    rw [h.note] at hn
    obtain ⟨m, -, hm⟩ := Option.bind_eq_some_iff.1 hn
    split at hm
    · cases hm
    · next hb => cases hm; exact ⟨unix_no_cr m, fun hh => hb (unix_not_blank hh)⟩

/-- A contour of lines and curves stays one. -/
theorem resaved_cubic {g g' : Glif PD D} (h : Resaved (spoken g) g') (hq : ∀ o, g.outline = some o → ∀ c ∈ o, Cubic c) :
    ∀ o, g'.outline = some o → ∀ c ∈ o, Cubic c := by
  intro o ho c hcm
  have := h.outline
  rw [ho] at this
  simp only [Option.getD_some] at this
  have e : (spoken g).outline.getD [] = (g.outline.getD []).map fun c => c.map spokenPoint := by
    unfold spoken; cases g.outline <;> rfl
  rw [e, resaved_spoken] at this
  rw [this] at hcm
  obtain ⟨k, hk, rfl⟩ := List.mem_map.1 hcm
  obtain ⟨j, hj, rfl⟩ := List.mem_map.1 hk
  have hj := (List.mem_filter.1 hj).1
  have hcj : Cubic j := by
    cases hg : g.outline with
    | none => rw [hg] at hj; cases hj
    | some o' => rw [hg] at hj; exact hq o' hg j hj
  intro p hp
  obtain ⟨q, hq', rfl⟩ := List.mem_map.1 hp
  have hq' : q.ptype ∈ ((stored j).map unsigned).map (·.ptype) := List.mem_map.2 ⟨q, hq', rfl⟩
  obtain ⟨a, b, h1, h2⟩ := stored_types j
  rw [h2] at hq'
  have : q.ptype ∈ j.map (·.ptype) := by rw [h1]; simp only [List.mem_append] at hq' ⊢; tauto
  obtain ⟨x, hx, he⟩ := List.mem_map.1 this
  show q.ptype = _ ∨ q.ptype = _ ∨ q.ptype = _
  rw [← he]
  exact hcj x hx

/-- **C142.** It can be saved and read as often as one likes, and only the first save changes anything. -/
theorem C142_settles (mid : IOF → IOF → IOF) {lio : LeafIO L} (hl : LeafLaws lio) (lay lay' : XmlText.Layout) (hy : Lays lay) (hy' : Lays lay')
    (ped : Pedantry) (t : Str) (g : Glif PD (Dict L)) (h : readText mid (io lio lay) (XmlText.io lay') ped t = .ok g)
    (hq : ∀ o, g.outline = some o → ∀ c ∈ o, Cubic c) :
    ∃ gs : Nat → Glif PD (Dict L), gs 0 = g ∧ ∀ n, ReopensAs mid (io lio lay) (XmlText.io lay') (gs n) (gs (n + 1)) ∧
      AsSpelled (gs (n + 1)) ∧ Resaved (gs (n + 1)) (gs (n + 2)) := by
  let Good : Glif PD (Dict L) → Prop := fun g =>
    (∃ ped t, readText mid (io lio lay) (XmlText.io lay') ped t = .ok g) ∧ ∀ o, g.outline = some o → ∀ c ∈ o, Cubic c
  have step : ∀ g, Good g → ∃ g', ReopensAs mid (io lio lay) (XmlText.io lay') g g' ∧ Good g' ∧ AsSpelled g' := by
    rintro g ⟨⟨ped, t, h⟩, hq⟩
    obtain ⟨g', hr, hlib⟩ := C142_partial mid hl lay lay' hy hy' ped t g h hq
    have ⟨s, _, hrd⟩ := hr
    have hgood : ∀ l, Resaved (spoken { g with lib := l }) g' → Good g' ∧ AudibleGlyph g' := by
      intro l hres
      have hq' := resaved_cubic hres hq
      exact ⟨⟨⟨{}, s, hrd⟩, hq'⟩, resaved_audible hres (read_saveable hrd hq').2⟩
    rcases hlib with ⟨hn, hres⟩ | ⟨d, d', hd, -, ha, hres⟩
    · obtain ⟨h1, h2⟩ := hgood g.lib hres
      refine ⟨g', hr, h1, h2, fun d hd => ?_⟩
      rw [hres.lib, show (spoken g).lib = g.lib from rfl, hn] at hd
      cases hd
    · obtain ⟨h1, h2⟩ := hgood _ hres
      refine ⟨g', hr, h1, h2, fun d hd => ?_⟩
      rw [hres.lib] at hd
      cases hd
      exact ha
  choose f hf using step
  let gs : Nat → { g // Good g } := fun n => Nat.rec ⟨g, ⟨ped, t, h⟩, hq⟩ (fun _ x => ⟨f x.1 x.2, (hf x.1 x.2).2.1⟩) n
  refine ⟨fun n => (gs n).1, rfl, fun n => ⟨(hf (gs n).1 (gs n).2).1, (hf (gs n).1 (gs n).2).2.2, ?_⟩⟩
  obtain ⟨⟨ped', t', h'⟩, hq'⟩ := (gs (n + 1)).2
  obtain ⟨g', hr, hres⟩ := (C142_exact mid hl lay lay' hy hy' ped' t' _ h' hq').2 (hf (gs n).1 (gs n).2).2.2
  have := reopens_unique (hf (gs (n + 1)).1 (gs (n + 1)).2).1 hr
  rw [← this] at hres
  exact hres

/-! ## Quadratic curves -/

theorem quadStep_grows (mid : IOF → IOF → IOF) (l : GlifContour) (st : Contour PD × List GlifPoint) : st.1 <+: (l.foldl (quadStep mid) st).1 := by
  induction l generalizing st with
  | nil => exact List.prefix_refl _
  | cons g l ih =>
    refine List.IsPrefix.trans ?_ (ih _)
    unfold quadStep
    simp only []
    split
    · exact List.prefix_append _ _
    · split
      · split <;> exact List.prefix_append _ _
      · exact List.prefix_refl _

theorem quadratic_has (mid : IOF → IOF → IOF) (y : GlifPoint) (gc : GlifContour) (hy : y.ptype = .qcurve) :
    ∃ p ∈ (quadraticContour mid (y :: gc) : Contour PD), p.ptype = .qcurve := by
  have h1 : quadStep (PD := PD) mid ([], []) y = ([Point.ofGp y], []) := by simp [quadStep, hy]
  have h2 : (Point.ofGp y : Point PD) ∈ ((y :: gc).foldl (quadStep mid) ([], [])).1 := by
    rw [List.foldl_cons, h1]
    exact (quadStep_grows mid gc _).subset (by simp)
  refine ⟨Point.ofGp y, ?_, hy⟩
  unfold quadraticContour
  simp only []
  split
  · exact List.mem_append_left _ h2
  · exact h2

/-- A contour that was read is made of lines and cubic curves exactly if it does not start with a quadratic point. -/
theorem read_contour_kind {mid : IOF → IOF → IOF} {e : Element} {gc : GlifContour} {c : Contour PD} (hr : readContour e = .ok gc)
    (hg : contourOfGlif mid gc = .ok c) (hne : c ≠ []) :
    (¬ StartsQuadratic e ∧ Cubic c) ∨ (StartsQuadratic e ∧ ∃ p ∈ c, p.ptype = .qcurve) := by
  cases gc with
  | nil => cases hg
  | cons y gc =>
    have hpts := contour_read hr
    obtain ⟨x, xs, hxs, hxr⟩ : ∃ x xs, named "point" e.children = x :: xs ∧ readPoint x = .ok y := by
      generalize named "point" e.children = els at hpts
      cases hpts with
      | cons h _ => exact ⟨_, _, rfl, h⟩
    have hst : StartsQuadratic e ↔ y.ptype = .qcurve := by
      rw [(readPoint_type hxr).2.2.2.1]
      constructor
      · rintro ⟨p, ps, h, hq⟩; rw [hxs] at h; cases h; exact hq
      · exact fun h => ⟨x, xs, hxs, h⟩
    by_cases hy : y.ptype = .qcurve
    · refine .inr ⟨hst.2 hy, ?_⟩
      unfold contourOfGlif at hg
      simp only [hy] at hg
      cases hg
      exact quadratic_has mid y gc hy
    · refine .inl ⟨fun h => hy (hst.1 h), ?_⟩
      have hw := (contour_read_file hr (by simp)).2 y List.mem_cons_self
      have hcub : cubicContour (PD := PD) (y :: gc) = .ok c := by
        unfold contourOfGlif at hg
        rcases hw with e | e | e | e | e <;> simp only [e] at hg
        · exact hg
        · exact hg
        · exact hg
        · exact absurd e hy
        · cases hg; exact absurd rfl hne
      rcases cubicContour_types (PD := PD) (y :: gc) with ⟨_, e⟩ | ⟨_, c', e, ht⟩
      · rw [e] at hcub; cases hcub
      · rw [e] at hcub; cases hcub
        intro p hp
        have : p.ptype ∈ c.map (·.ptype) := List.mem_map_of_mem hp
        rw [ht] at this
        split at this
        · cases this
        · have hd := (List.mem_filter.1 this).2
          simpa [isDrawn, or_assoc] using hd

theorem read_cubic_iff {mid : IOF → IOF → IOF} {pio : PlistIO D} {ped : Pedantry} {root : Element} {g : Glif PD D}
    (h : readGlif mid pio ped root = .ok g) :
    (∀ o, g.outline = some o → ∀ c ∈ o, Cubic c) ↔ ∀ e ∈ contoursOf root, ¬ StartsQuadratic e := by
  have hall := C08_file mid pio ped root g h
  have hget : (∀ o, g.outline = some o → ∀ c ∈ o, Cubic c) ↔ ∀ c ∈ g.outline.getD [], Cubic c := by
    cases g.outline <;> simp
  rw [hget]
  constructor
  · intro hc e he hq
    have hd : ¬ Dropped e := by
      obtain ⟨p, ps, hp, ht⟩ := hq
      unfold Dropped
      rw [hp]
      simp only []
      unfold OfType at ht
      rintro (hh | ⟨hh, -⟩)
      · exact hh _ ht (by decide)
      · unfold OfType at hh; rw [ht] at hh; exact absurd (Option.some.inj hh) (by decide)
    obtain ⟨c, hcm, hne, gc, hr, hg⟩ := forall₂_mem_left hall (List.mem_filter.2 ⟨he, by simpa using hd⟩)
    rcases read_contour_kind hr hg hne with ⟨h1, -⟩ | ⟨-, p, hp, ht⟩
    · exact h1 hq
    · have := hc c hcm p hp
      rw [ht] at this
      rcases this with h | h | h <;> cases h
  · intro hq c hcm
    obtain ⟨e, he, hne, gc, hr, hg⟩ := forall₂_mem_right hall hcm
    rcases read_contour_kind hr hg hne with ⟨-, h2⟩ | ⟨h1, -⟩
    · exact h2
    · exact absurd h1 (hq e (List.mem_filter.1 he).1)

/-- What can be saved and read, and then saved again, has no quadratic curves. -/
theorem reopens_cubic (mid : IOF → IOF → IOF) {lio : LeafIO L} (hl : LeafLaws lio) (lay lay' : XmlText.Layout) (hy : Lays lay) (hy' : Lays lay')
    {ped : Pedantry} {t : Str} {g g' : Glif PD (Dict L)} {s : Str} (h : readText mid (io lio lay) (XmlText.io lay') ped t = .ok g)
    (h1 : ReopensAs mid (io lio lay) (XmlText.io lay') g g') (h2 : writeText (io lio lay) (XmlText.io lay') g' = .ok s) :
    ∀ o, g.outline = some o → ∀ c ∈ o, Cubic c := by
  obtain ⟨root, ht, hr⟩ := read_document h
  have hsay : SayableLib (io lio lay) g := by
    rcases reopened_lib h with hn | ⟨d, hd, f1, f2⟩
    · exact ⟨fun d h => (nomatch hn.symm.trans h), fun e h => (nomatch hn.symm.trans h)⟩
    · refine ⟨fun d' h' e he => ?_, fun e h => (nomatch hd.symm.trans h)⟩
      rw [hd] at h'
      cases h'
      exact lib_sayable hl lay hy d f1 (fun c h => (f2 c h).1) e he
  obtain ⟨s1, hw, hrd⟩ := h1
  rw [C97_spoken mid (io lio lay) lay' hy' {} g (told_chars mid _ ped ht hr) hsay s1 hw] at hrd
  obtain ⟨e2, he2, -⟩ := bind_eq_ok.1 h2
  have hsv := (C02_exact mid (io lio lay) (spoken g) (fun w hw => read_width hr w hw)).1 ⟨g', e2, hrd, he2⟩
  intro o ho c hc
  have hall := C08_file mid (io lio lay) ped root g hr
  rw [ho] at hall
  obtain ⟨e, -, hne, gc, hrc, hg⟩ := forall₂_mem_right hall hc
  rcases read_contour_kind hrc hg hne with ⟨-, h2⟩ | ⟨-, p, hp, hpt⟩
  · exact h2
  · have := (hsv (c.map spokenPoint) (by
      unfold spoken
      rw [ho]
      exact List.mem_map.2 ⟨c, hc, rfl⟩)).2 (spokenPoint p) (List.mem_map.2 ⟨p, hp, rfl⟩)
    rw [show (spokenPoint p).ptype = .qcurve from hpt] at this
    rcases this with h | h | h | h <;> cases h

/-- **C142.** Exactly the files none of whose contours starts with a quadratic point can be saved and opened again for ever;
the others not even twice. -/
theorem C142_ever (mid : IOF → IOF → IOF) {lio : LeafIO L} (hl : LeafLaws lio) (lay lay' : XmlText.Layout) (hy : Lays lay) (hy' : Lays lay')
    (ped : Pedantry) (t : Str) (g : Glif PD (Dict L)) (h : readText mid (io lio lay) (XmlText.io lay') ped t = .ok g) (root : Element)
    (hs : SpellsDoc root t) :
    ((∃ gs : Nat → Glif PD (Dict L), gs 0 = g ∧ ∀ n, ReopensAs mid (io lio lay) (XmlText.io lay') (gs n) (gs (n + 1))) ↔
      ∀ e ∈ contoursOf root, ¬ StartsQuadratic e) ∧
    ((∃ g' g'', ReopensAs mid (io lio lay) (XmlText.io lay') g g' ∧ ReopensAs mid (io lio lay) (XmlText.io lay') g' g'') ↔
      ∀ e ∈ contoursOf root, ¬ StartsQuadratic e) := by
  have hr : readGlif mid (io lio lay) ped root = .ok g := by
    unfold readText at h
    rw [show (XmlText.io lay').parse t = some root from (C140_exact root t).2 hs] at h
    exact h
  have hk := read_cubic_iff hr
  have h2 : (∃ g' g'', ReopensAs mid (io lio lay) (XmlText.io lay') g g' ∧ ReopensAs mid (io lio lay) (XmlText.io lay') g' g'') →
      ∀ e ∈ contoursOf root, ¬ StartsQuadratic e := by
    rintro ⟨g', g'', h1, s, hw, -⟩
    exact hk.1 (reopens_cubic mid hl lay lay' hy hy' h h1 hw)
  have h1 : (∀ e ∈ contoursOf root, ¬ StartsQuadratic e) → ∃ gs : Nat → Glif PD (Dict L), gs 0 = g ∧
      ∀ n, ReopensAs mid (io lio lay) (XmlText.io lay') (gs n) (gs (n + 1)) := by
    intro hq
    obtain ⟨gs, h0, hgs⟩ := C142_settles mid hl lay lay' hy hy' ped t g h (hk.2 hq)
    exact ⟨gs, h0, fun n => (hgs n).1⟩
  have h3 : (∃ gs : Nat → Glif PD (Dict L), gs 0 = g ∧ ∀ n, ReopensAs mid (io lio lay) (XmlText.io lay') (gs n) (gs (n + 1))) →
      ∃ g' g'', ReopensAs mid (io lio lay) (XmlText.io lay') g g' ∧ ReopensAs mid (io lio lay) (XmlText.io lay') g' g'' := by
    rintro ⟨gs, rfl, hgs⟩
    exact ⟨_, _, hgs 0, hgs 1⟩
  exact ⟨⟨fun h => h2 (h3 h), h1⟩, ⟨h2, fun h => h3 (h1 h)⟩⟩

/-- C142 as stated is false: there is a file that is opened and cannot be saved. -/
theorem C142_false (mid : IOF → IOF → IOF) (lio : LeafIO L) (lay lay' : XmlText.Layout) (hy' : Lays lay') :
    ∃ t, ∃ g : Glif PD (Dict L), readText mid (io lio lay) (XmlText.io lay') {} t = .ok g ∧
      writeText (io lio lay) (XmlText.io lay') g = .panic := by
  obtain ⟨g, hr, hw⟩ := endsOff_unsaved (PD := PD) mid (io lio lay)
  have hattrs : ∀ as : List (String × Str), (as.map (·.1)).Nodup → (∀ a ∈ as, XmlName a.1) → (∀ a ∈ as, ∀ c ∈ a.2, c.toNat < 128 ∧ 32 ≤ c.toNat) →
      XmlAttrs as := fun as h1 h2 h3 => ⟨h1, fun a ha => ⟨h2 a ha, fun c hc => by
    have := h3 a ha c hc
    refine ⟨.inr (.inr (.inr ⟨this.2, by omega, by omega⟩)), ?_⟩
    rintro rfl
    exact absurd this.2 (by decide)⟩⟩
  have hpt : ∀ c ∈ Sample.endsOff, Sayable c := by
    intro c hc
    simp only [Sample.endsOff, Sample.pe, Sample.offe, List.mem_cons, List.not_mem_nil, or_false] at hc
    rcases hc with rfl | rfl | rfl | rfl <;>
      exact .elem _ _ _ (by decide) (hattrs _ (by decide) (by decide) (by decide)) (by simp) (fun i s t h => by simp at h)
  have hsay : Sayable (Sample.doc Sample.endsOff).node := by
    refine .elem _ _ _ (by decide) (hattrs _ (by decide) (by decide) (by decide)) (fun c hc => ?_) (apart_nodes _ fun c hc => ?_)
    · rw [List.mem_singleton.1 hc]
      refine .elem _ _ _ (by decide) (hattrs _ (by decide) (by decide) (by decide)) (fun c hc => ?_) (apart_nodes _ fun c hc => ?_)
      · rw [List.mem_singleton.1 hc]
        refine .elem _ _ _ (by decide) (hattrs _ (by decide) (by decide) (by decide)) hpt (apart_nodes _ fun c hc => ?_)
        simp only [Sample.endsOff, Sample.pe, Sample.offe, List.mem_cons, List.not_mem_nil, or_false] at hc
        rcases hc with rfl | rfl | rfl | rfl <;> exact fun s h => (nomatch h)
      · rw [List.mem_singleton.1 hc]; exact fun s h => (nomatch h)
    · rw [List.mem_singleton.1 hc]; exact fun s h => (nomatch h)
  refine ⟨XmlText.print lay' (Sample.doc Sample.endsOff), g, ?_, ?_⟩
  · unfold readText
    rw [show (XmlText.io lay').parse (XmlText.print lay' (Sample.doc Sample.endsOff)) = some (Sample.doc Sample.endsOff) from
      C97_document lay' hy' _ hsay]
    exact hr
  · unfold writeText
    rw [hw]
    rfl

/-! ## Samples -/

/-- A file with a tab in a name, two lines and a curve, and a lib. -/
def Sample.opened : Str := "<?xml version=\"1.0\"?><!-- c --><glyph format='2' name='a&#9;b'><advance width='500'/><outline><contour><point x='0' y='0' type='line'/><point x='1' y='1'/><point x='2' y='1'/><point x='3' y='0' type='curve' name='n'/></contour></outline><lib><dict><key>k</key><string><![CDATA[ ]]></string></dict></lib></glyph>".toList

/-- It is read, and is not as it will be spelled. -/
example : ∃ g : Glif Unit _, readText (fun a _ => a) (io Sample.dates64 .indented) (XmlText.io .indented) {} Sample.opened = .ok g ∧
    (∀ o, g.outline = some o → ∀ c ∈ o, Cubic c) ∧ g.name = "a\tb".toList ∧ (g.outline.getD []).map List.length = [2] ∧ ¬ AsSpelled g := by
  have hok : (match readText (PD := Unit) (fun a _ => a) (io Sample.dates64 .indented) (XmlText.io .indented) {} Sample.opened with
      | .ok g => some (g.name, (g.outline.getD []).map fun c => c.map (·.ptype)) | _ => none) =
      some ("a\tb".toList, [[.line, .curve]]) := by decide +kernel
  match hr : readText (PD := Unit) (fun a _ => a) (io Sample.dates64 .indented) (XmlText.io .indented) {} Sample.opened with
  | .err _ => rw [hr] at hok; cases hok
  | .panic => rw [hr] at hok; cases hok
  | .ok g =>
    rw [hr] at hok
    simp only [Option.some.injEq, Prod.mk.injEq] at hok
    refine ⟨g, rfl, fun o ho c hc p hp => ?_, hok.1, ?_, fun h => h.glyph.name (by rw [hok.1]; decide)⟩
    · rw [ho] at hok
      have : c.map (·.ptype) ∈ o.map fun c => c.map (·.ptype) := List.mem_map.2 ⟨c, hc, rfl⟩
      rw [show o.map (fun c => c.map (·.ptype)) = [[.line, .curve]] from hok.2, List.mem_singleton] at this
      have hp : p.ptype ∈ c.map (·.ptype) := List.mem_map.2 ⟨p, hp, rfl⟩
      rw [this] at hp
      simp only [List.mem_cons, List.not_mem_nil, or_false] at hp
      exact .inr hp
    · have := congrArg (List.map List.length) hok.2
      simpa [Function.comp_def] using this

end GP
