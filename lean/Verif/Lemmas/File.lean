import Verif.Spec.File
/-!
# The reader in terms of the children of each name
-/
open Fl Fl.Text
namespace GP
variable {PD D : Type}
open Spec

@[simp] theorem named_nil (n : String) : named n [] = [] := rfl

theorem named_cons_elem (n name : String) (attrs children) (cs : List Node) :
    named n (.elem name attrs children :: cs) =
      (if name = n then [({ name := name, attrs := attrs, children := children } : Element)] else []) ++ named n cs := by
  unfold named
  rw [List.filterMap_cons]
  split
  next h => split at h <;> simp_all
  next h => split at h <;> simp_all

theorem named_append (n : String) (a b : List Node) : named n (a ++ b) = named n a ++ named n b := by
  simp [named, List.filterMap_append]

theorem named_cons (n : String) (c : Node) (cs : List Node) : named n (c :: cs) = named n [c] ++ named n cs :=
  named_append n [c] cs

theorem takeChild_spec (n : String) (cs : List Node) :
    match takeChild n cs with
    | none => named n cs = []
    | some (e, r) => named n cs = e :: named n r ∧ ∀ m, m ≠ n → named m r = named m cs := by
  induction cs with
  | nil => simp [takeChild]
  | cons c cs ih =>
    unfold takeChild
    cases c with
    | elem name attrs children =>
      simp only []
      by_cases h : name = n
      · rw [if_pos h, named_cons_elem, if_pos h]
        refine ⟨rfl, ?_⟩
        intro m hm
        rw [named_cons_elem, if_neg (by rintro rfl; exact hm h)]; rfl
      · rw [if_neg h, named_cons_elem, if_neg h]
        cases e : takeChild n cs with
        | none => rw [e] at ih; simpa using ih
        | some er =>
          rw [e] at ih
          simp only [Option.map_some] at ih ⊢
          refine ⟨?_, ?_⟩
          · rw [named_cons_elem, if_neg h]; simpa using ih.1
          · intro m hm
            rw [named_cons_elem, named_cons_elem, ih.2 m hm]
    | _ =>
      cases e : takeChild n cs with
      | none => rw [e] at ih; simpa [named, List.filterMap_cons] using ih
      | some er =>
        rw [e] at ih
        simp only [Option.map_some] at ih ⊢
        refine ⟨?_, ?_⟩
        · rw [named_cons, ih.1, named_cons (cs := er.2)]; rfl
        · intro m hm
          rw [named_cons, ih.2 m hm, ← named_cons]

theorem takeOpt_fst (n : String) (cs : List Node) : (takeOpt n cs).1 = (named n cs).head? := by
  unfold takeOpt
  have := takeChild_spec n cs
  cases e : takeChild n cs with
  | none => rw [e] at this; simp only [] at this ⊢; rw [this]; rfl
  | some er => rw [e] at this; simp only [] at this ⊢; rw [this.1]; rfl

theorem takeOpt_snd (n m : String) (h : m ≠ n) (cs : List Node) : named m (takeOpt n cs).2 = named m cs := by
  unfold takeOpt
  have := takeChild_spec n cs
  cases e : takeChild n cs with
  | none => rfl
  | some er => rw [e] at this; exact this.2 m h

/-- What a `take_child` loop leaves: the other nodes. -/
def others (n : String) (cs : List Node) : List Node :=
  match _h : takeChild n cs with
  | none => cs
  | some (_, rest) => others n rest
termination_by cs.length
decreasing_by exact takeChild_length _h

theorem others_none {n : String} {cs : List Node} (h : takeChild n cs = none) : others n cs = cs := by
  unfold others; split
  · rfl
  next h' => rw [h] at h'; cases h'

theorem others_some {n : String} {cs r : List Node} {e : Element} (h : takeChild n cs = some (e, r)) :
    others n cs = others n r := by
  conv => lhs; unfold others
  split
  next h' => rw [h] at h'; cases h'
  next h' => rw [h] at h'; cases h'; rfl

theorem named_others (n m : String) (h : m ≠ n) (cs : List Node) : named m (others n cs) = named m cs := by
  induction hl : cs.length using Nat.strongRecOn generalizing cs with
  | ind l ih =>
    have := takeChild_spec n cs
    cases he : takeChild n cs with
    | none => rw [others_none he]
    | some er =>
      rw [he] at this
      rw [others_some (e := er.1) (r := er.2) he, ih er.2.length (by subst hl; exact takeChild_length he) er.2 rfl, this.2 m h]

theorem takeLoop_eq {α : Type} (n : String) (f : Element → R α) (cs : List Node) :
    takeLoop n f cs = (Out.mapM' f (named n cs) >>= fun as => .ok (as, others n cs)) := by
  induction hl : cs.length using Nat.strongRecOn generalizing cs with
  | ind l ih =>
    unfold takeLoop
    have := takeChild_spec n cs
    split
    next he =>
      rw [he] at this; simp only [] at this; rw [this, others_none he]; rfl
    next e r he =>
      rw [he] at this
      rw [this.1, Out.mapM'_cons, ih r.length (by subst hl; exact takeChild_length he) r rfl, others_some he]
      cases f e with
      | ok a => 
        simp only [Out.bind_ok]
        cases Out.mapM' f (named n r) <;> rfl
      | err e => rfl
      | panic => rfl

theorem readContour_eq (e : Element) : readContour e = Out.mapM' readPoint (named "point" e.children) := by
  unfold readContour
  rw [takeLoop_eq]
  cases Out.mapM' readPoint (named "point" e.children) <;> rfl

/-- `readOutline` from the contours and components. -/
def readOutlineBy (contours components : List Element) : R (List GlifContour × List GlifComponent) := do
  let cs ← Out.mapM' readContour contours
  let comps ← Out.mapM' readComponent components
  .ok (cs.filter (fun c => !c.isEmpty), comps)

theorem readOutline_eq (e : Element) :
    readOutline e = readOutlineBy (named "contour" e.children) (named "component" e.children) := by
  unfold readOutline readOutlineBy
  rw [takeLoop_eq]
  cases Out.mapM' readContour (named "contour" e.children) with
  | ok cs =>
    simp only [Out.bind_ok]
    rw [takeLoop_eq, named_others _ _ (by decide)]
    cases Out.mapM' readComponent (named "component" e.children) <;> rfl
  | err e => rfl
  | panic => rfl

/-- The reader on the parts of a document. -/
def readParts (mid : IOF → IOF → IOF) (pio : PlistIO D) (ped : Pedantry) (rootName : String)
    (get : String → Option Str) (kids : String → List Element) : R (Glif PD D) := do
  if rootName ≠ "glyph" then .err (.input "Root element not <glyph>") else do
  let format ← Out.ofOption (.input "no format in <glyph>") (get "format")
  if format ≠ "2".toList then .err (.input "<glyph> format not 2") else do
  let name ← Out.ofOption (.input "<glyph> has no name") (get "name")
  let width ← readOpt (readAdvance ped) (kids "advance").head?
  let unicode ← Out.mapM' readUnicode (kids "unicode")
  let anchors ← Out.mapM' (readAnchor ped) (kids "anchor")
  let images ← Out.mapM' readImage (kids "image")
  let guidelines ← Out.mapM' readGuideline (kids "guideline")
  let o ← readOpt readOutline (kids "outline").head?
  let goutline := (o.map Prod.fst).getD []
  let comps := (o.map Prod.snd).getD []
  let lib := match (kids "lib").head? with
    | some e => readLib pio e
    | none => .none
  let outline ← outlineOfGlif mid goutline
  .ok { outline := if !outline.isEmpty || !comps.isEmpty then some outline else none
        anchors := anchors, components := { root := name, vec := comps }, guidelines := guidelines
        images := images, width := width, unicode := unicode, name := name
        note := (kids "note").head?.bind Element.getText, filename := none, lib := lib }

theorem Out.bind_assoc' {ε α β γ : Type} (x : Out ε α) (f : α → Out ε β) (g : β → Out ε γ) :
    (x >>= f >>= g) = (x >>= fun a => f a >>= g) := by cases x <;> rfl

theorem readGlif_eq (mid : IOF → IOF → IOF) (pio : PlistIO D) (ped : Pedantry) (root : Element) :
    readGlif (PD := PD) mid pio ped root =
      readParts mid pio ped root.name root.get (fun n => named n root.children) := by
  unfold readGlif readParts need
  simp only [takeLoop_eq, Out.bind_assoc', Out.bind_ok, takeOpt_fst]
  have h1 : ∀ m, m ≠ "advance" → named m (takeOpt "advance" root.children).2 = named m root.children :=
    fun m h => takeOpt_snd _ _ h _
  generalize (takeOpt "advance" root.children).2 = c1 at h1 ⊢
  have h2 : ∀ m, m ≠ "unicode" → named m (others "unicode" c1) = named m c1 := fun m h => named_others _ _ h _
  generalize others "unicode" c1 = c2 at h2 ⊢
  have h3 : ∀ m, m ≠ "anchor" → named m (others "anchor" c2) = named m c2 := fun m h => named_others _ _ h _
  generalize others "anchor" c2 = c3 at h3 ⊢
  have h4 : ∀ m, m ≠ "image" → named m (others "image" c3) = named m c3 := fun m h => named_others _ _ h _
  generalize others "image" c3 = c4 at h4 ⊢
  have h5 : ∀ m, m ≠ "guideline" → named m (others "guideline" c4) = named m c4 := fun m h => named_others _ _ h _
  generalize others "guideline" c4 = c5 at h5 ⊢
  have h6 : ∀ m, m ≠ "note" → named m (takeOpt "note" c5).2 = named m c5 := fun m h => takeOpt_snd _ _ h _
  generalize (takeOpt "note" c5).2 = c6 at h6 ⊢
  have h7 : ∀ m, m ≠ "outline" → named m (takeOpt "outline" c6).2 = named m c6 := fun m h => takeOpt_snd _ _ h _
  generalize (takeOpt "outline" c6).2 = c7 at h7 ⊢
  rw [h1 "unicode" (by decide), h2 "anchor" (by decide), h1 "anchor" (by decide),
    h3 "image" (by decide), h2 "image" (by decide), h1 "image" (by decide),
    h4 "guideline" (by decide), h3 "guideline" (by decide), h2 "guideline" (by decide), h1 "guideline" (by decide),
    h5 "note" (by decide), h4 "note" (by decide), h3 "note" (by decide), h2 "note" (by decide), h1 "note" (by decide),
    h6 "outline" (by decide), h5 "outline" (by decide), h4 "outline" (by decide), h3 "outline" (by decide),
    h2 "outline" (by decide), h1 "outline" (by decide),
    h7 "lib" (by decide), h6 "lib" (by decide), h5 "lib" (by decide), h4 "lib" (by decide), h3 "lib" (by decide),
    h2 "lib" (by decide), h1 "lib" (by decide)]
  rfl

end GP
