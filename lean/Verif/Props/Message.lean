import Verif.Spec.Message
import Verif.Lemmas.Text
import Verif.Props.Strings
/-!
# Messages of errors (C116)
-/
open Fl Fl.Text
namespace GP
open Spec
variable {IO : Type}

/-! ### The fixed beginnings of the messages -/

/-- The kinds of messages. -/
inductive MsgKind where
  | outline (t : PointType) | contour (t : PointType)
  | io | notSet | insane | utf8 | cyclical | lib | xml | pedantic | input | notLoaded | notPNG | notDecodable | imageIo | color | conversion | bounds | one | zero | noPrevious | noNext
  deriving DecidableEq

/-- Of which kind a message is. -/
def Problem.kind : Problem IO → MsgKind
  | .glifFileIo _ => .io
  | .outlineHasBadPointType _ _ t => .outline t
  | .contourHasBadPointType _ t => .contour t
  | .filenameNotSet _ => .notSet
  | .filenameInsane _ => .insane
  | .notUtf8 => .utf8
  | .componentsCyclical _ => .cyclical
  | .libError => .lib
  | .xmlParse _ => .xml
  | .xmlWrite _ => .xml
  | .pedanticXmlParse _ => .pedantic
  | .glifInput _ => .input
  | .imageNotLoaded => .notLoaded
  | .imageNotPNG => .notPNG
  | .imageNotDecodable => .notDecodable
  | .imageIo _ => .imageIo
  | .colorNotRGBA => .color
  | .typeConversion _ _ => .conversion
  | .pointIdxOutOfBounds _ _ => .bounds
  | .contourLenOne => .one
  | .contourLenZero => .zero
  | .contourNoPrevious _ => .noPrevious
  | .contourNoNext _ => .noNext

/-- The beginning that all messages of a kind have. -/
def kindHead : MsgKind → Str
  | .io => "System error when loading glif file: ".toList
  | .outline t => "Bad point type ".toList ++ t.debug ++ " in outline @(".toList
  | .contour t => "Bad point type ".toList ++ t.debug ++ " in contour @".toList
  | .notSet => "Glyph filename not set: ".toList
  | .insane => "Glyph filename not sane: ".toList
  | .utf8 => "Glyph not utf-8".toList
  | .cyclical => "Glyph components are cyclical: ".toList
  | .lib => "Glif <lib> invalid".toList
  | .xml => "XML error: ".toList
  | .pedantic => "XML error (requested pedantry, would not normally be an error): ".toList
  | .input => "Glif format spec error: ".toList
  | .notLoaded => "Tried to access data for image whose data hasn't been loaded".toList
  | .notPNG =>
    "Image not formatted as PNG. The glif file format only supports PNG. If you want to support other types, you have to work on the data yourself.".toList
  | .notDecodable => "Image not decodable".toList
  | .imageIo => "System error when loading image: ".toList
  | .color => "Color not RGBA".toList
  | .conversion => "Type conversion error: ".toList
  | .bounds => "The point index ".toList
  | .one => "On a contour of length one, there's no previous/next point".toList
  | .zero => "On an empty invalid contour (len == 0), there's no previous/next point".toList
  | .noPrevious => "Asked for previous index of 0 on an open contour (len ".toList
  | .noNext => "Asked for next index of last point, ".toList

/-- What follows it. -/
def Problem.details (debug : Option IO → Str) : Problem IO → Str
  | .glifFileIo ioe => debug ioe
  | .imageIo ioe => debug ioe
  | .outlineHasBadPointType ci pi _ => toDigits 10 ci ++ ',' :: (" ".toList ++ toDigits 10 pi ++ "))".toList)
  | .contourHasBadPointType pi _ => toDigits 10 pi ++ ")".toList
  | .filenameNotSet s => s
  | .filenameInsane s => s
  | .componentsCyclical s => s
  | .xmlParse s => s
  | .xmlWrite s => s
  | .pedanticXmlParse s => s
  | .glifInput s => s
  | .typeConversion t v => v ++ " not in".toList ++ ' ' :: t.name
  | .pointIdxOutOfBounds idx len => toDigits 10 idx ++ ' ' :: ("is out of bounds as self.len() == ".toList ++ toDigits 10 len)
  | .contourNoPrevious len => toDigits 10 len ++ ")".toList
  | .contourNoNext len => toDigits 10 len ++ ", on an open contour".toList
  | _ => []

/-- All of them. -/
def kinds : List MsgKind :=
  ([.undefined, .move, .curve, .qcurve, .qclose, .line, .offcurve].flatMap fun t => [.outline t, .contour t]) ++
    [.io, .notSet, .insane, .utf8, .cyclical, .lib, .xml, .pedantic, .input, .notLoaded, .notPNG, .notDecodable, .imageIo, .color, .conversion, .bounds, .one, .zero, .noPrevious, .noNext]

theorem kind_mem (k : MsgKind) : k ∈ kinds := by
  cases k with
  | outline t => cases t <;> decide
  | contour t => cases t <;> decide
  | _ => decide

theorem kinds_apart' : (kinds.all fun k => kinds.all fun k' => !(kindHead k).isPrefixOf (kindHead k') || k == k') = true := by decide +kernel

theorem kinds_apart {k k' : MsgKind} (h : kindHead k <+: kindHead k') : k = k' := by
  have h1 := List.all_eq_true.1 (List.all_eq_true.1 kinds_apart' k (kind_mem k)) k' (kind_mem k')
  rw [List.isPrefixOf_iff_prefix.2 h] at h1
  simpa using h1

theorem display_eq (debug : Option IO → Str) (e : Problem IO) :
    e.display debug = "glifparser error: ".toList ++ (kindHead e.kind ++ e.details debug) := by
  unfold Problem.display
  refine congrArg _ ?_
  have app : ∀ s : Str, s = s ++ [] := fun s => (List.append_nil s).symm
  cases e with
  | outlineHasBadPointType ci pi t =>
    show _ = ("Bad point type ".toList ++ t.debug ++ " in outline @(".toList) ++ (toDigits 10 ci ++ (", ".toList ++ toDigits 10 pi ++ "))".toList))
    rw [← List.append_assoc, ← List.append_assoc, ← List.append_assoc]
  | contourHasBadPointType pi t => exact List.append_assoc ..
  | typeConversion t v =>
    show _ = "Type conversion error: ".toList ++ ((v ++ " not in".toList) ++ ([' '] ++ t.name))
    rw [← List.append_assoc (v ++ _), List.append_assoc v, ← List.append_assoc, ← List.append_assoc]
    rfl
  | pointIdxOutOfBounds idx len =>
    show _ = "The point index ".toList ++ (toDigits 10 idx ++ (" is out of bounds as self.len() == ".toList ++ toDigits 10 len))
    rw [← List.append_assoc, ← List.append_assoc]
  | contourNoPrevious len => exact List.append_assoc ..
  | contourNoNext len => exact List.append_assoc ..
  | notUtf8 => exact app _
  | libError => exact app _
  | imageNotLoaded => exact app _
  | imageNotPNG => exact app _
  | imageNotDecodable => exact app _
  | colorNotRGBA => exact app _
  | contourLenOne => exact app _
  | contourLenZero => exact app _
  | _ => rfl

/-- Errors with the same message are of the same kind, and the same details follow. -/
theorem display_kind {debug : Option IO → Str} {e e' : Problem IO} (h : e.display debug = e'.display debug) :
    e.kind = e'.kind ∧ e.details debug = e'.details debug := by
  rw [display_eq, display_eq] at h
  have h' := List.append_cancel_left h
  have hk : e.kind = e'.kind := by
    rcases List.prefix_or_prefix_of_prefix (List.prefix_append (kindHead e.kind) (e.details debug)) (h'.symm ▸ List.prefix_append (kindHead e'.kind) (e'.details debug)) with hp | hp
    · exact kinds_apart hp
    · exact (kinds_apart hp).symm
  rw [hk] at h'
  exact ⟨hk, List.append_cancel_left h'⟩

/-! ### The details -/

theorem cut_unique {α : Type} {c : α} : ∀ {l m x y : List α}, c ∉ l → c ∉ m → l ++ c :: x = m ++ c :: y → l = m ∧ x = y
  | [], [], _, _, _, _, h => ⟨rfl, by simpa using h⟩
  | [], b :: m, _, _, _, hm, h => by
    rw [List.nil_append, List.cons_append, List.cons.injEq] at h
    exact absurd (h.1 ▸ List.mem_cons_self ..) hm
  | a :: l, [], _, _, hl, _, h => by
    rw [List.nil_append, List.cons_append, List.cons.injEq] at h
    exact absurd (h.1 ▸ List.mem_cons_self ..) hl
  | a :: l, b :: m, _, _, hl, hm, h => by
    rw [List.cons_append, List.cons_append, List.cons.injEq] at h
    obtain ⟨h1, h2⟩ := cut_unique (fun hc => hl (List.mem_cons_of_mem _ hc)) (fun hc => hm (List.mem_cons_of_mem _ hc)) h.2
    exact ⟨by rw [h.1, h1], h2⟩

theorem messageDigits_inj {n m : Nat} (h : toDigits 10 n = toDigits 10 m) : n = m := by
  rw [← ofDigits_toDigits (b := 10) (by decide) (by decide) n, h, ofDigits_toDigits (by decide) (by decide)]

theorem digits_no_space (n : Nat) : ' ' ∉ toDigits 10 n := by
  intro h
  obtain ⟨d, hd, e⟩ := toDigits_chars (by decide) (by decide) n ' ' h
  have : ∀ d, d < 10 → ' ' ≠ digitChar d := by decide
  exact this d hd e

/-- The last blank of a text decides where its last word begins. -/
theorem lastWord_unique {v v' w w' : Str} (h : v ++ ' ' :: w = v' ++ ' ' :: w') (hw : ' ' ∉ w) (hw' : ' ' ∉ w') : v = v' ∧ w = w' := by
  have := congrArg List.reverse h
  simp only [List.reverse_append, List.reverse_cons, List.append_assoc, List.cons_append, List.nil_append] at this
  obtain ⟨h1, h2⟩ := cut_unique (by simpa using hw) (by simpa using hw') this
  exact ⟨List.reverse_inj.1 h2, List.reverse_inj.1 h1⟩

theorem reqType_no_space (t : ReqType) : ' ' ∉ t.name := by cases t <;> decide

theorem reqType_name_inj {t t' : ReqType} (h : t.name = t'.name) : t = t' := by
  cases t <;> cases t' <;> first | rfl | (revert h; decide)

theorem conversion_details {debug : Option IO → Str} {t t' : ReqType} {v v' : Str}
    (h : (Problem.typeConversion t v : Problem IO).details debug = (Problem.typeConversion t' v').details debug) :
    (Problem.typeConversion t v : Problem IO) = .typeConversion t' v' := by
  obtain ⟨h1, h2⟩ := lastWord_unique (v := v ++ " not in".toList) (v' := v' ++ " not in".toList) h (reqType_no_space t) (reqType_no_space t')
  rw [reqType_name_inj h2, List.append_cancel_right h1]

theorem bounds_details {debug : Option IO → Str} {i i' n n' : Nat}
    (h : (Problem.pointIdxOutOfBounds i n : Problem IO).details debug = (Problem.pointIdxOutOfBounds i' n').details debug) :
    (Problem.pointIdxOutOfBounds i n : Problem IO) = .pointIdxOutOfBounds i' n' := by
  obtain ⟨h1, h2⟩ := cut_unique (digits_no_space i) (digits_no_space i') h
  rw [messageDigits_inj h1, messageDigits_inj (List.append_cancel_left h2)]

theorem outline_details {debug : Option IO → Str} {t : PointType} {i i' n n' : Nat}
    (h : (Problem.outlineHasBadPointType i n t : Problem IO).details debug = (Problem.outlineHasBadPointType i' n' t).details debug) :
    (Problem.outlineHasBadPointType i n t : Problem IO) = .outlineHasBadPointType i' n' t := by
  obtain ⟨h1, h2⟩ := cut_unique (digits_no_comma i) (digits_no_comma i') h
  rw [messageDigits_inj h1, messageDigits_inj (List.append_cancel_left (List.append_cancel_right h2))]

/-! ## C116 -/

/-- **C116**, exactly: two errors have the same message if and only if they are the same error, or an error in reading
XML and one in writing it with the same text, or errors of the system that it prints alike. -/
theorem C116_exact (debug : Option IO → Str) (e e' : Problem IO) :
    e.display debug = e'.display debug ↔ e = e' ∨ ReadOrWrite e e' ∨ SameIo debug e e' := by
  constructor
  · intro h
    obtain ⟨hk, hd⟩ := display_kind h
    cases e with
    | libError => cases e' <;> first | (cases hk; done) | exact Or.inl rfl
    | notUtf8 => cases e' <;> first | (cases hk; done) | exact Or.inl rfl
    | imageNotLoaded => cases e' <;> first | (cases hk; done) | exact Or.inl rfl
    | imageNotPNG => cases e' <;> first | (cases hk; done) | exact Or.inl rfl
    | imageNotDecodable => cases e' <;> first | (cases hk; done) | exact Or.inl rfl
    | colorNotRGBA => cases e' <;> first | (cases hk; done) | exact Or.inl rfl
    | contourLenOne => cases e' <;> first | (cases hk; done) | exact Or.inl rfl
    | contourLenZero => cases e' <;> first | (cases hk; done) | exact Or.inl rfl
    | filenameNotSet s => cases e' <;> first | (cases hk; done) | exact Or.inl (congrArg _ hd)
    | filenameInsane s => cases e' <;> first | (cases hk; done) | exact Or.inl (congrArg _ hd)
    | componentsCyclical s => cases e' <;> first | (cases hk; done) | exact Or.inl (congrArg _ hd)
    | pedanticXmlParse s => cases e' <;> first | (cases hk; done) | exact Or.inl (congrArg _ hd)
    | glifInput s => cases e' <;> first | (cases hk; done) | exact Or.inl (congrArg _ hd)
    | xmlParse s => cases e' <;> first | (cases hk; done) | exact Or.inl (congrArg _ hd) | exact Or.inr (Or.inl ⟨s, Or.inl ⟨rfl, congrArg Problem.xmlWrite (Eq.symm hd)⟩⟩)
    | xmlWrite s => cases e' <;> first | (cases hk; done) | exact Or.inl (congrArg _ hd) | exact Or.inr (Or.inl ⟨s, Or.inr ⟨rfl, congrArg Problem.xmlParse (Eq.symm hd)⟩⟩)
    | glifFileIo i => cases e' <;> first | (cases hk; done) | exact Or.inr (Or.inr ⟨_, _, hd, Or.inl ⟨rfl, rfl⟩⟩)
    | imageIo i => cases e' <;> first | (cases hk; done) | exact Or.inr (Or.inr ⟨_, _, hd, Or.inr ⟨rfl, rfl⟩⟩)
    | typeConversion t v => cases e' <;> first | (cases hk; done) | exact Or.inl (conversion_details hd)
    | pointIdxOutOfBounds idx len => cases e' <;> first | (cases hk; done) | exact Or.inl (bounds_details hd)
    | contourNoPrevious len => cases e' <;> first | (cases hk; done) | exact Or.inl (congrArg _ (messageDigits_inj (List.append_cancel_right hd)))
    | contourNoNext len => cases e' <;> first | (cases hk; done) | exact Or.inl (congrArg _ (messageDigits_inj (List.append_cancel_right hd)))
    | contourHasBadPointType pi t => cases e' <;> first | (cases hk; done) | (cases hk; exact Or.inl (congrArg (Problem.contourHasBadPointType · t) (messageDigits_inj (List.append_cancel_right hd))))
    | outlineHasBadPointType ci pi t => cases e' <;> first | (cases hk; done) | (cases hk; exact Or.inl (outline_details hd))
  · rintro (rfl | ⟨s, ⟨rfl, rfl⟩ | ⟨rfl, rfl⟩⟩ | ⟨i, j, h, ⟨rfl, rfl⟩ | ⟨rfl, rfl⟩⟩)
    · rfl
    · rfl
    · rfl
    · rw [display_eq, display_eq]
      exact congrArg (fun x => "glifparser error: ".toList ++ ("System error when loading glif file: ".toList ++ x)) h
    · rw [display_eq, display_eq]
      exact congrArg (fun x => "glifparser error: ".toList ++ ("System error when loading image: ".toList ++ x)) h

/-- **C116**, as far as it holds: the message of an error that is not from the system, and not from writing XML, is the
message of no other such error.  Missing: errors in reading and in writing XML, which cannot be told apart
(`C116_false`). -/
theorem C116_partial (debug : Option IO → Str) (e e' : Problem IO) (h : e.display debug = e'.display debug)
    (he : ∀ x : Problem IO, x = e ∨ x = e' → (∀ s, x ≠ .xmlWrite s) ∧ (∀ i, x ≠ .glifFileIo i) ∧ ∀ i, x ≠ .imageIo i) : e = e' := by
  rcases (C116_exact debug e e').1 h with h | ⟨s, ⟨-, h⟩ | ⟨h, -⟩⟩ | ⟨i, j, -, ⟨h, -⟩ | ⟨h, -⟩⟩
  · exact h
  · exact absurd h ((he e' (Or.inr rfl)).1 s)
  · exact absurd h ((he e (Or.inl rfl)).1 s)
  · exact absurd h ((he e (Or.inl rfl)).2.1 i)
  · exact absurd h ((he e (Or.inl rfl)).2.2 i)

/-- **C116 is false of the code**: an error in reading XML has the message of an error in writing it. -/
theorem C116_false (debug : Option IO → Str) (s : Str) :
    (Problem.xmlParse s).display debug = (Problem.xmlWrite s).display debug ∧ (Problem.xmlParse s : Problem IO) ≠ .xmlWrite s :=
  ⟨rfl, nofun⟩

/-- The messages about contour operations that do not fit their contours are all different. -/
theorem C116_upgrade (e e' : OpsErr) (h : e.display = e'.display) : e = e' := by
  cases e <;> cases e' <;> first | rfl | (revert h; decide +kernel)

/-- The control characters. -/
def controlChars : List Char := (List.range 32 ++ [127]).map Char.ofNat

theorem control_mem {c : Char} (h : Control c) : c ∈ controlChars := by
  have hc : c.toNat < 32 ∨ c.toNat = 127 := by
    have := (isControl_iff c).2 h
    simpa [isControl] using this
  exact List.mem_map.2 ⟨c.toNat, by simpa using hc, Char.ofNat_toNat c⟩

theorem controls_apart : (controlChars.all fun c => !(controlDebug c).contains '`' &&
    controlChars.all fun d => !(controlDebug c == controlDebug d) || c == d) = true := by decide +kernel

theorem control_debug {c : Char} (h : Control c) : '`' ∉ controlDebug c ∧ ∀ d, Control d → controlDebug c = controlDebug d → c = d := by
  have h1 := List.all_eq_true.1 controls_apart c (control_mem h)
  rw [Bool.and_eq_true] at h1
  refine ⟨by simpa using h1.1, fun d hd he => ?_⟩
  have h2 := List.all_eq_true.1 h1.2 d (control_mem hd)
  rw [he] at h2
  simpa using h2

theorem display_control (i : Nat) (c : Char) : (StrErr.hasControlCharacter i c).display =
    "String has control character `".toList ++ (controlDebug c ++ ("` at position ".toList ++ toDigits 10 i)) := by
  have h : ∀ a b d : Str, a ++ controlDebug c ++ b ++ d = a ++ (controlDebug c ++ (b ++ d)) := fun a b d => by
    rw [List.append_assoc, List.append_assoc]
  exact h _ _ _

theorem zero_length (t : Str) : "String has control character `".toList ++ t ≠ "String is zero-length".toList := by
  intro h
  have : "String has control character `".toList <+: "String is zero-length".toList := ⟨t, h⟩
  exact absurd this (by decide)

/-- **C116.** The messages about texts that are refused tell the first control character and its place, and the empty
text. -/
theorem C116_strings (s s' : Str) (e e' : StrErr) (he : glifStringLenOne s = .err e) (he' : glifStringLenOne s' = .err e')
    (h : e.display = e'.display) : e = e' := by
  have hc : ∀ {s : Str} {i : Nat} {c : Char}, glifStringLenOne s = .err (.hasControlCharacter i c) → Control c := by
    intro s i c h
    unfold glifStringLenOne at h
    cases hg : glifString s with
    | ok t =>
      rw [hg] at h
      change (if t.length = 0 then _ else _) = _ at h
      split at h <;> cases h
    | err x =>
      rw [hg] at h
      cases h
      exact ((C15_index s i c).1 hg).2.1
    | panic => rw [hg] at h; cases h
  cases e with
  | lenZero =>
    cases e' with
    | lenZero => rfl
    | hasControlCharacter i' c' =>
      rw [display_control] at h
      exact absurd h.symm (zero_length (controlDebug c' ++ ("` at position ".toList ++ toDigits 10 i')))
  | hasControlCharacter i c =>
    cases e' with
    | lenZero =>
      rw [display_control] at h
      exact absurd h (zero_length (controlDebug c ++ ("` at position ".toList ++ toDigits 10 i)))
    | hasControlCharacter i' c' =>
      have h1 := control_debug (hc he)
      have h2 := control_debug (hc he')
      rw [display_control, display_control, List.append_cancel_left_eq] at h
      have hq : ∀ i, "` at position ".toList ++ toDigits 10 i = '`' :: (" at position ".toList ++ toDigits 10 i) := fun _ => rfl
      rw [hq, hq] at h
      obtain ⟨h3, h4⟩ := cut_unique h1.1 h2.1 h
      rw [List.append_cancel_left_eq] at h4
      rw [h1.2 c' (hc he') h3, messageDigits_inj h4]

/-- Two messages about texts. -/
example : glifStringLenOne "a\x1bb".toList = .err (.hasControlCharacter 1 '\x1b') ∧
    (StrErr.hasControlCharacter 1 '\x1b').display = "String has control character `'\\u{1b}'` at position 1".toList ∧
    (StrErr.hasControlCharacter 12 '\t').display = "String has control character `'\\t'` at position 12".toList ∧
    glifStringLenOne [] = .err .lenZero := by decide +kernel

/-- Some messages. -/
example : (Problem.contourHasBadPointType 1 .qclose : Problem Unit).display (fun _ => []) =
      "glifparser error: Bad point type QClose in contour @1)".toList ∧
    (Problem.outlineHasBadPointType 1 12 .qclose : Problem Unit).display (fun _ => []) =
      "glifparser error: Bad point type QClose in outline @(1, 12))".toList ∧
    (Problem.typeConversion .capType "a not in b".toList : Problem Unit).display (fun _ => []) =
      "glifparser error: Type conversion error: a not in b not in CapType".toList := by decide +kernel

end GP
