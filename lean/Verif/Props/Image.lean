import Verif.Spec.Image
import Verif.Props.SampleFont
/-!
# Images (C44, C59, C60)
-/
open Fl
namespace GP
open Spec

/-! ## C44 -/

theorem load_agrees (read : Option (List UInt8)) (i : Image) : Agrees (i.load read).2 := by
  cases read with
  | none => trivial
  | some d => exact ⟨d, rfl⟩

theorem tintPixels_spec (scale : UInt8 → IOF → UInt8) (c : Color) : ∀ (n : Nat) (l : List UInt8), l.length = 4 * n →
    ∃ t, tintPixels scale c l = some t ∧ t.length = l.length ∧
      ∀ k, t[4 * k]? = l[4 * k]?.map (scale · c.r) ∧ t[4 * k + 1]? = l[4 * k + 1]?.map (scale · c.g) ∧
        t[4 * k + 2]? = l[4 * k + 2]?.map (scale · c.b) ∧ t[4 * k + 3]? = l[4 * k + 3]?.map (scale · c.a) := by
  intro n
  induction n with
  | zero =>
    intro l hl
    cases l with
    | nil => exact ⟨[], rfl, rfl, fun k => ⟨rfl, rfl, rfl, rfl⟩⟩
    | cons x l => simp at hl
  | succ n ih =>
    intro l hl
    match l, hl with
    | r :: g :: b :: a :: l, hl =>
      obtain ⟨t, h1, h2, h3⟩ := ih l (by simp at hl; omega)
      refine ⟨scale r c.r :: scale g c.g :: scale b c.b :: scale a c.a :: t, by simp [tintPixels, h1], by simp [h2], fun k => ?_⟩
      cases k with
      | zero => exact ⟨rfl, rfl, rfl, rfl⟩
      | succ k =>
        have e : ∀ j, 4 * (k + 1) + j = (4 * k + j) + 4 := by intro j; omega
        have := h3 k
        refine ⟨?_, ?_, ?_, ?_⟩
        · rw [show 4 * (k + 1) = 4 * k + 4 by omega]; exact this.1
        · rw [e]; exact this.2.1
        · rw [e]; exact this.2.2.1
        · rw [e]; exact this.2.2.2
    | [], hl => simp at hl
    | [_], hl => simp at hl; omega
    | [_, _], hl => simp at hl; omega
    | [_, _, _], hl => simp at hl; omega

theorem tint_spec {lib : ImageLib} (hs : ImageSound lib) (c : Color) {d : List UInt8} {b : Bitmap} (hd : lib.decode d = some b) :
    ∃ t, lib.tint c d = some t ∧ TimesColor lib.scale c (lib.grey d) t := by
  obtain ⟨t, h1, h2, h3⟩ := tintPixels_spec lib.scale c _ _ (hs d b hd).2.2.2
  exact ⟨{ lib.grey d with pixels := t }, by simp [ImageLib.tint, h1], rfl, rfl, h2, h3⟩

/-- The bitmap stored after decoding: `none` if tinting panics. -/
def stored (lib : ImageLib) (i : Image) (d : List UInt8) (b : Bitmap) : Option Bitmap := i.color.elim (some b) fun c => lib.tint c d

theorem stored_sound {lib : ImageLib} (hs : ImageSound lib) (i : Image) {d : List UInt8} {b : Bitmap} (hd : lib.decode d = some b) : ∃ t, stored lib i d b = some t := by
  unfold stored
  cases i.color with
  | none => exact ⟨b, rfl⟩
  | some c => obtain ⟨t, h, -⟩ := tint_spec hs c hd; exact ⟨t, h⟩

/-- All that decoding may do. -/
theorem decode_cases (lib : ImageLib) (more : Bool) (i : Image) :
    (∃ b, i.data = .bitmap b ∧ i.decode lib more = (.err .imageIo, i)) ∨
    (∃ d, i.data = .data d ∧ lib.guess d = none ∧ i.decode lib more = (.err .imageIo, i)) ∨
    (∃ d png, i.data = .data d ∧ lib.guess d = some png ∧ (more || png) = false ∧
      i.decode lib more = (.err .imageNotPNG, { i with state := .loadedDecodeFailed })) ∨
    (∃ d png, i.data = .data d ∧ lib.guess d = some png ∧ (more || png) = true ∧ lib.decode d = none ∧
      i.decode lib more = (.err .imageNotDecodable, { i with state := .loadedDecodeFailed })) ∨
    (∃ d png b, i.data = .data d ∧ lib.guess d = some png ∧ (more || png) = true ∧ lib.decode d = some b ∧ stored lib i d b = none ∧
      i.decode lib more = (.panic, i)) ∨
    ∃ d png b t, i.data = .data d ∧ lib.guess d = some png ∧ (more || png) = true ∧ lib.decode d = some b ∧ stored lib i d b = some t ∧
      i.decode lib more = (.ok (), { i with data := .bitmap t, state := .decoded }) := by
  cases hd : i.data with
  | bitmap b => exact Or.inl ⟨b, rfl, by simp [Image.decode, hd]⟩
  | data d =>
    cases hg : lib.guess d with
    | none => exact Or.inr (Or.inl ⟨d, rfl, hg, by simp [Image.decode, hd, hg]⟩)
    | some png =>
      cases hm : (more || png) with
      | false => exact Or.inr (Or.inr (Or.inl ⟨d, png, rfl, hg, hm, by
          simp only [Bool.or_eq_false_iff] at hm
          simp [Image.decode, hd, hg, hm]⟩))
      | true =>
        have hm' : (!more && !png) = false := by
          revert hm
          cases more <;> cases png <;> decide
        cases hx : lib.decode d with
        | none => exact Or.inr (Or.inr (Or.inr (Or.inl ⟨d, png, rfl, hg, hm, hx, by simp [Image.decode, hd, hg, hm', hx]⟩)))
        | some b =>
          refine Or.inr (Or.inr (Or.inr (Or.inr ?_)))
          have e : i.decode lib more = match stored lib i d b with
              | some t => (.ok (), { i with data := .bitmap t, state := .decoded })
              | none => (.panic, i) := by
            unfold stored
            cases hc : i.color with
            | none => simp [Image.decode, hd, hg, hm', hx, hc]
            | some c => cases ht : lib.tint c d <;> simp [Image.decode, hd, hg, hm', hx, hc, ht]
          cases ht : stored lib i d b with
          | none => exact Or.inl ⟨d, png, b, rfl, hg, hm, hx, ht, by rw [e, ht]⟩
          | some t => exact Or.inr ⟨d, png, b, t, rfl, hg, hm, hx, ht, by rw [e, ht]⟩

theorem decode_agrees (lib : ImageLib) (more : Bool) (i : Image) (h : Agrees i) : Agrees (i.decode lib more).2 := by
  rcases decode_cases lib more i with ⟨b, -, e⟩ | ⟨d, -, -, e⟩ | ⟨d, png, hd, -, -, e⟩ | ⟨d, png, hd, -, -, -, e⟩ |
    ⟨d, png, b, -, -, -, -, -, e⟩ | ⟨d, png, b, t, -, -, -, -, -, e⟩ <;> rw [e]
  · exact h
  · exact h
  · exact ⟨d, hd⟩
  · exact ⟨d, hd⟩
  · exact h
  · exact ⟨_, rfl⟩

theorem run_agrees (c : ImageCall) (i : Image) (h : Agrees i) : Agrees (c.run i).2 := by
  cases c with
  | load read => exact load_agrees read i
  | decode lib more => exact decode_agrees lib more i h

theorem after_agrees (calls : List ImageCall) : ∀ i, Agrees i → Agrees (after i calls) := by
  induction calls with
  | nil => exact fun i h => h
  | cons c calls ih => exact fun i h => ih _ (run_agrees c i h)

/-- **C44**, first part: along every history of loading and decoding, whatever the outcomes, state and
stored data agree. -/
theorem C44_agrees (calls : List ImageCall) : Agrees (after Image.new calls) := after_agrees calls _ rfl

/-- Loading and decoding never panic, not even out of turn. -/
theorem C44_calls_safe (c : ImageCall) (hs : c.Sound) (i : Image) : (c.run i).1 ≠ .panic := by
  cases c with
  | load read =>
    show (i.load read).1 ≠ .panic
    cases read <;> (intro h; cases h)
  | decode lib more =>
    show (i.decode lib more).1 ≠ .panic
    rcases decode_cases lib more i with ⟨b, -, e⟩ | ⟨d, -, -, e⟩ | ⟨d, png, hd, -, -, e⟩ | ⟨d, png, hd, -, -, -, e⟩ |
      ⟨d, png, b, -, -, -, hx, ht, e⟩ | ⟨d, png, b, t, -, -, -, -, -, e⟩ <;> rw [e]
    case inr.inr.inr.inr.inl =>
      obtain ⟨t, ht'⟩ := stored_sound hs i hx
      rw [ht] at ht'
      cases ht'
    all_goals intro h; cases h

/-- **C44**, second part, as far as it is true: along every history, asking for the raw data returns
exactly the bytes stored if the state is `Loaded`, and an error before anything was loaded.  Missing: after
decoding was tried, for which it is false (`C44_false`). -/
theorem C44_partial (calls : List ImageCall) :
    let i := after Image.new calls
    (i.state = .loaded → ∃ d, i.data = .data d ∧ i.rawData = .ok d) ∧
    (i.state = .notTried → i.rawData = .err .imageNotLoaded) ∧
    (i.state = .triedAndFailed → i.rawData = .err .imageIo) := by
  intro i
  have h := C44_agrees calls
  refine ⟨fun hs => ?_, fun hs => ?_, fun hs => ?_⟩
  · unfold Agrees at h
    rw [show (after Image.new calls).state = .loaded from hs] at h
    obtain ⟨d, hd⟩ := h
    refine ⟨d, hd, ?_⟩
    unfold Image.rawData
    rw [hs]
    simp only []
    rw [show i.data = .data d from hd]
    rfl
  · unfold Image.rawData; rw [hs]
  · unfold Image.rawData; rw [hs]

/-- Exactly the two states after decoding was tried make it panic. -/
theorem C44_exact (calls : List ImageCall) :
    let i := after Image.new calls
    i.rawData = .panic ↔ i.state = .loadedDecodeFailed ∨ i.state = .decoded := by
  intro i
  obtain ⟨h1, h2, h3⟩ := C44_partial calls
  constructor
  · intro hp
    cases hs : i.state with
    | notTried => rw [h2 hs] at hp; cases hp
    | triedAndFailed => rw [h3 hs] at hp; cases hp
    | loaded =>
      obtain ⟨d, -, hd⟩ := h1 hs
      rw [hd] at hp
      cases hp
    | loadedDecodeFailed => exact Or.inl rfl
    | decoded => exact Or.inr rfl
  · rintro (hs | hs) <;> (unfold Image.rawData; rw [hs])

/-- C44 as stated is false: an image loaded and successfully decoded panics when asked for its data, and so
does one that could not be decoded. -/
theorem C44_false (bytes : List UInt8) (b : Bitmap) :
    (after Image.new [.load (some bytes), .decode ⟨fun _ => some true, fun _ => some b, fun _ => b, fun x _ => x⟩ false]).rawData = .panic ∧
    (after Image.new [.load (some bytes), .decode ⟨fun _ => some true, fun _ => none, fun _ => ⟨[], 0, 0⟩, fun x _ => x⟩ false]).rawData = .panic :=
  ⟨rfl, rfl⟩

/-- What loading does. -/
theorem C44_load (i : Image) (read : Option (List UInt8)) :
    (∀ d, read = some d → (i.load read).1 = .ok () ∧ (i.load read).2.state = .loaded ∧ (i.load read).2.data = .data d ∧
      (i.load read).2.rawData = .ok d) ∧
    (read = none → (i.load read).1 = .err .imageIo ∧ (i.load read).2.state = .triedAndFailed ∧ (i.load read).2.data = i.data) ∧
    (i.load read).2.filename = i.filename ∧ (i.load read).2.matrix = i.matrix ∧ (i.load read).2.color = i.color := by
  cases read with
  | none => exact ⟨fun d h => (nomatch h), fun _ => ⟨rfl, rfl, rfl⟩, rfl, rfl, rfl⟩
  | some d =>
    refine ⟨fun d' h => ?_, fun h => (nomatch h), rfl, rfl, rfl⟩
    cases h
    exact ⟨rfl, rfl, rfl, rfl⟩

/-- What decoding does: it succeeds exactly if raw bytes are stored that are a PNG (or other formats are
supported) and can be decoded, and then stores the bitmap, tinted if there is a colour (C130); if it fails it keeps
what is stored. -/
theorem C44_decode (lib : ImageLib) (hs : ImageSound lib) (more : Bool) (i : Image) :
    ((i.decode lib more).1 = .ok () ↔ ∃ d png b, i.data = .data d ∧ lib.guess d = some png ∧ (more || png) = true ∧ lib.decode d = some b) ∧
    (∀ d b, (i.decode lib more).1 = .ok () → i.data = .data d → lib.decode d = some b →
      (i.decode lib more).2.state = .decoded ∧ ∃ t, (i.decode lib more).2.data = .bitmap t ∧
      (i.color = none → t = b) ∧ ∀ c, i.color = some c → TimesColor lib.scale c (lib.grey d) t) ∧
    ((i.decode lib more).1 ≠ .ok () → (i.decode lib more).2.data = i.data) := by
  rcases decode_cases lib more i with ⟨b, hd, e⟩ | ⟨d, hd, hg, e⟩ | ⟨d, png, hd, hg, hm, e⟩ | ⟨d, png, hd, hg, hm, hx, e⟩ |
      ⟨d, png, b, hd, hg, hm, hx, ht, e⟩ | ⟨d, png, b, t, hd, hg, hm, hx, ht, e⟩ <;> rw [e]
  · refine ⟨⟨fun h => (nomatch h), fun ⟨d, _, _, h, _⟩ => ?_⟩, fun _ _ h => (nomatch h), fun _ => rfl⟩
    rw [hd] at h
    cases h
  · refine ⟨⟨fun h => (nomatch h), fun ⟨d', _, _, h, h', _⟩ => ?_⟩, fun _ _ h => (nomatch h), fun _ => rfl⟩
    cases hd.symm.trans h
    rw [hg] at h'
    cases h'
  · refine ⟨⟨fun h => (nomatch h), fun ⟨d', _, _, h, h', h'', _⟩ => ?_⟩, fun _ _ h => (nomatch h), fun _ => rfl⟩
    cases hd.symm.trans h
    cases hg.symm.trans h'
    rw [hm] at h''
    cases h''
  · refine ⟨⟨fun h => (nomatch h), fun ⟨d', _, _, h, _, _, h'⟩ => ?_⟩, fun _ _ h => (nomatch h), fun _ => rfl⟩
    cases hd.symm.trans h
    rw [hx] at h'
    cases h'
  · obtain ⟨t, ht'⟩ := stored_sound hs i hx
    rw [ht] at ht'
    cases ht'
  · refine ⟨⟨fun _ => ⟨d, png, b, hd, hg, hm, hx⟩, fun _ => rfl⟩, fun d' b' _ h h' => ?_, fun h => absurd rfl h⟩
    cases hd.symm.trans h
    cases hx.symm.trans h'
    refine ⟨rfl, t, rfl, fun hc => ?_, fun c hc => ?_⟩
    · unfold stored at ht
      rw [hc] at ht
      cases ht
      rfl
    · unfold stored at ht
      rw [hc] at ht
      obtain ⟨t', h1, h2⟩ := tint_spec hs c hx
      rw [show lib.tint c d = some t from ht] at h1
      cases h1
      exact h2

/-- Decoding a second time is refused and changes nothing. -/
theorem C44_decode_twice (lib lib' : ImageLib) (hs : ImageSound lib) (more more' : Bool) (i : Image) (h : (i.decode lib more).1 = .ok ()) :
    ((i.decode lib more).2).decode lib' more' = (.err .imageIo, (i.decode lib more).2) := by
  obtain ⟨d, png, b, h1, h2, h3, h4⟩ := (C44_decode lib hs more i).1.1 h
  obtain ⟨-, t, h5, -⟩ := (C44_decode lib hs more i).2.1 d b h h1 h4
  generalize (i.decode lib more).2 = j at h5 ⊢
  simp [Image.decode, h5]

/-- After a failed attempt to load again the old bytes are still there, and decoding uses them. -/
theorem C44_stale (bytes : List UInt8) (b : Bitmap) :
    (after Image.new [.load (some bytes), .load none, .decode ⟨fun _ => some true, fun d => if d = bytes then some b else none, fun _ => b, fun x _ => x⟩ false]).data = .bitmap b := by
  simp [after, ImageCall.run, Image.load, Image.decode, Image.new, DataOrBitmap.guessCodec, DataOrBitmap.unwrapData]

/-- With a sound decoder every bitmap ever stored has four bytes for each pixel. -/
theorem C44_pixels (calls : List ImageCall) (h : ∀ c ∈ calls, c.Sound) (b : Bitmap) (hb : (after Image.new calls).data = .bitmap b) :
    b.pixels.length = 4 * (b.width * b.height) := by
  have key : ∀ (calls : List ImageCall) (i : Image), (∀ c ∈ calls, c.Sound) →
      (∀ b, i.data = .bitmap b → b.pixels.length = 4 * (b.width * b.height)) →
      ∀ b, (after i calls).data = .bitmap b → b.pixels.length = 4 * (b.width * b.height) := by
    intro calls
    induction calls with
    | nil => intro i _ hi; exact hi
    | cons c calls ih =>
      intro i hc hi
      refine ih _ (fun d hd => hc d (List.mem_cons_of_mem _ hd)) ?_
      intro b hb
      cases c with
      | load read =>
        cases read with
        | none => exact hi b hb
        | some d => cases hb
      | decode lib more =>
        have hs : ImageSound lib := hc _ (List.mem_cons_self ..)
        obtain ⟨k1, k2, k3⟩ := C44_decode lib hs more i
        by_cases hok : (i.decode lib more).1 = .ok ()
        · obtain ⟨d, png, b0, h1, h2, h3, h4⟩ := k1.1 hok
          obtain ⟨-, t, h5, h6, h7⟩ := k2 d b0 hok h1 h4
          have hb' : (i.decode lib more).2.data = .bitmap b := hb
          rw [h5] at hb'
          cases hb'
          obtain ⟨h0, g1, g2, g3⟩ := hs d b0 h4
          cases hcol : i.color with
          | none => rw [h6 hcol]; exact h0
          | some col =>
            obtain ⟨e1, e2, e3, -⟩ := h7 col hcol
            rw [e1, e2, e3, g1, g2, g3]
        · exact hi b (by rw [← k3 hok]; exact hb)
  exact key calls Image.new h (fun b hb => by cases hb) b hb

example : ∃ (calls : List ImageCall) (b : Bitmap), (∀ c ∈ calls, c.Sound) ∧ (after Image.new calls).data = .bitmap b ∧
    b.width = 2 ∧ b.height = 1 := by
  refine ⟨[.load (some [1, 2]), .decode ⟨fun _ => some true, fun _ => some ⟨[0, 0, 0, 0, 1, 1, 1, 1], 2, 1⟩,
    fun _ => ⟨List.replicate 8 7, 2, 1⟩, fun x _ => x⟩ false], _, ?_, rfl, rfl, rfl⟩
  intro c hc
  simp only [List.mem_cons, List.not_mem_nil, or_false] at hc
  rcases hc with rfl | rfl
  · trivial
  · exact fun _ _ h => by cases h; exact ⟨rfl, rfl, rfl, rfl⟩

/-! ## C130 -/

/-- **C130.** An image with a colour is decoded to its grey bitmap, of the same size, with each channel of each pixel
multiplied with that component of the colour; an image without one is decoded to what the decoder gives. -/
theorem C130_tint (lib : ImageLib) (hs : ImageSound lib) (more : Bool) (i : Image) (d : List UInt8) (png : Bool) (b : Bitmap)
    (hd : i.data = .data d) (hg : lib.guess d = some png) (hm : (more || png) = true) (hx : lib.decode d = some b) :
    ∃ t, (i.decode lib more).1 = .ok () ∧ (i.decode lib more).2.data = .bitmap t ∧ t.width = b.width ∧ t.height = b.height ∧
      t.pixels.length = 4 * (b.width * b.height) ∧ (i.color = none → t = b) ∧ ∀ c, i.color = some c → TimesColor lib.scale c (lib.grey d) t := by
  have hok := (C44_decode lib hs more i).1.2 ⟨d, png, b, hd, hg, hm, hx⟩
  obtain ⟨-, t, h1, h2, h3⟩ := (C44_decode lib hs more i).2.1 d b hok hd hx
  obtain ⟨h0, g1, g2, g3⟩ := hs d b hx
  cases hc : i.color with
  | none =>
    rw [h2 hc] at h1
    exact ⟨b, hok, h1, rfl, rfl, h0, fun _ => rfl, fun c h => nomatch h⟩
  | some c =>
    obtain ⟨e1, e2, e3, -⟩ := h3 c hc
    refine ⟨t, hok, h1, e1.trans g1, e2.trans g2, e3.trans g3, fun h => (nomatch h), fun c' h => ?_⟩
    cases h
    exact h3 c hc

/-- The last three fields of an image, the file it comes from, its codec and its colour, are not changed by decoding, and
neither is its matrix. -/
theorem C130_rest (lib : ImageLib) (more : Bool) (i : Image) :
    (i.decode lib more).2.filename = i.filename ∧ (i.decode lib more).2.codec = i.codec ∧ (i.decode lib more).2.color = i.color ∧
      (i.decode lib more).2.matrix = i.matrix := by
  rcases decode_cases lib more i with ⟨b, hd, e⟩ | ⟨d, hd, hg, e⟩ | ⟨d, png, hd, hg, hm, e⟩ | ⟨d, png, hd, hg, hm, hx, e⟩ |
      ⟨d, png, b, hd, hg, hm, hx, ht, e⟩ | ⟨d, png, b, t, hd, hg, hm, hx, ht, e⟩ <;> rw [e] <;> exact ⟨rfl, rfl, rfl, rfl⟩

/-- Two pixels, the second blue, tinted with a colour whose red component is 0. -/
example : tintPixels (fun x f => if f = .int 0 (by decide) then 0 else x) ⟨.int 0 (by decide), .int 1 (by decide), .int 1 (by decide), .int 1 (by decide)⟩
    [9, 9, 9, 255, 4, 4, 4, 255] = some [0, 9, 9, 255, 0, 4, 4, 255] := by decide

/-- A library that decodes everything to two pixels. -/
example : ∃ lib : ImageLib, ImageSound lib ∧ lib.guess [1] = some true ∧ ∃ b, lib.decode [1] = some b ∧ b.width = 2 :=
  ⟨⟨fun _ => some true, fun _ => some ⟨[0, 0, 0, 0, 1, 1, 1, 1], 2, 1⟩, fun _ => ⟨List.replicate 8 7, 2, 1⟩, fun x _ => x⟩,
    fun _ _ h => by cases h; exact ⟨rfl, rfl, rfl, rfl⟩, rfl, _, rfl, rfl⟩

/-! ## C59 -/

/-- **C59.** The codec is told by the first bytes, and at least twelve bytes are needed: the file begins
with the signature of the codec reported. -/
theorem C59_signature (bytes : List UInt8) :
    (codecOf (bytes.take 12) = .png ↔ 12 ≤ bytes.length ∧ [0x89, 0x50, 0x4E, 0x47] <+: bytes) ∧
    (codecOf (bytes.take 12) = .jpeg ↔ 12 ≤ bytes.length ∧ [0xFF, 0xD8] <+: bytes) ∧
    (codecOf (bytes.take 12) = .gif ↔ 12 ≤ bytes.length ∧ [0x47, 0x49, 0x46, 0x38] <+: bytes) ∧
    (codecOf (bytes.take 12) = .bmp ↔ 12 ≤ bytes.length ∧ [0x42, 0x4D] <+: bytes) ∧
    (codecOf (bytes.take 12) = .tiff ↔ 12 ≤ bytes.length ∧ ([0x49, 0x49, 0x2A, 0x00] <+: bytes ∨ [0x4D, 0x4D, 0x00, 0x2A] <+: bytes)) ∧
    (codecOf (bytes.take 12) = .webp ↔ 12 ≤ bytes.length ∧ [0x52, 0x49, 0x46, 0x46] <+: bytes ∧ [0x57, 0x45, 0x42, 0x50] <+: bytes.drop 8) := by
  by_cases hlen : 12 ≤ bytes.length
  · match bytes, hlen with
    | a0 :: a1 :: a2 :: a3 :: a4 :: a5 :: a6 :: a7 :: a8 :: a9 :: a10 :: a11 :: rest, _ =>
      simp only [List.take_succ_cons, List.take_zero, List.drop_succ_cons, List.drop_zero, List.cons_prefix_cons, List.nil_prefix]
      unfold codecOf
      split
      case h_8 h1 h2 h3 h4 h5 h6 h7 =>
        refine ⟨⟨fun h => (nomatch h), ?_⟩, ⟨fun h => (nomatch h), ?_⟩, ⟨fun h => (nomatch h), ?_⟩, ⟨fun h => (nomatch h), ?_⟩,
          ⟨fun h => (nomatch h), ?_⟩, ⟨fun h => (nomatch h), ?_⟩⟩
        · rintro ⟨-, rfl, rfl, rfl, rfl, -⟩
          exact (h3 _ _ _ _ _ _ _ _ rfl).elim
        · rintro ⟨-, rfl, rfl, -⟩
          exact (h2 _ _ _ _ _ _ _ _ _ _ rfl).elim
        · rintro ⟨-, rfl, rfl, rfl, rfl, -⟩
          exact (h4 _ _ _ _ _ _ _ _ rfl).elim
        · rintro ⟨-, rfl, rfl, -⟩
          exact (h1 _ _ _ _ _ _ _ _ _ _ rfl).elim
        · rintro ⟨-, ⟨rfl, rfl, rfl, rfl, -⟩ | ⟨rfl, rfl, rfl, rfl, -⟩⟩
          · exact (h5 _ _ _ _ _ _ _ _ rfl).elim
          · exact (h6 _ _ _ _ _ _ _ _ rfl).elim
        · rintro ⟨-, ⟨rfl, rfl, rfl, rfl, -⟩, rfl, rfl, rfl, rfl, -⟩
          exact (h7 _ _ _ _ rfl).elim
      all_goals simp_all
  · have hu : codecOf (bytes.take 12) = .unknown := by
      unfold codecOf
      split <;> first | rfl | (next h => have := congrArg List.length h; simp at this; omega)
    simp [hu, hlen]

/-- A file of eleven bytes is never recognised, whatever its signature. -/
theorem C59_short (bytes : List UInt8) (h : bytes.length < 12) : codecOf (bytes.take 12) = .unknown := by
  unfold codecOf
  split <;> first | rfl | (next h' => have := congrArg List.length h'; simp at this; omega)

example : codecOf ([0x89, 0x50, 0x4E, 0x47, 0x0D, 0x0A, 0x1A, 0x0A, 0, 0, 0, 13, 0x49].take 12) = .png := rfl

/-! ## C60 -/

theorem resolveStep_plain {l : List Str} {s : Str} (hs : s ≠ "..".toList) : resolveStep l s = l ++ [s] := by
  unfold resolveStep
  rw [if_neg hs]

theorem resolveStep_up {l : List Str} {s : Str} (hs : s ≠ "..".toList) : resolveStep (l ++ [s]) "..".toList = l := by
  unfold resolveStep
  rw [if_pos rfl, List.getLast?_concat]
  show (if s = "..".toList then _ else _) = _
  rw [if_neg hs, List.dropLast_concat]

/-- **C60.** An image with a plain file name is looked for in the directory `images` beside the directory
the glyph is in. -/
theorem C60_file (i : GlifImage) (dir : Path) (glyphs name : Str) (hg : glyphs ≠ "..".toList) (hi : PlainName i.filename) :
    ∃ f, i.file (some { dir with parts := dir.parts ++ [glyphs, name] }) = .ok f ∧ f.abs = dir.abs ∧
      lexical f.parts = lexical dir.parts ++ ["images".toList, i.filename] := by
  have hpar : Path.parent { dir with parts := dir.parts ++ [glyphs, name] } = some { dir with parts := dir.parts ++ [glyphs] } := by
    unfold Path.parent
    rw [if_neg (by simp)]
    congr 2
    rw [show dir.parts ++ [glyphs, name] = (dir.parts ++ [glyphs]) ++ [name] by simp, List.dropLast_concat]
  have hs : splitOn '/' i.filename = [i.filename] := splitOn_none hi.2.1
  have hp : Path.ofStr i.filename = { abs := false, parts := [i.filename] } := by
    obtain ⟨h1, h2, h3, h4⟩ := hi
    unfold Path.ofStr
    rw [hs]
    congr 1
    · cases hf : i.filename with
      | nil => rfl
      | cons c s =>
        have : c ≠ '/' := fun e => h2 (by rw [hf, e]; exact List.mem_cons_self ..)
        simp [this]
    · have h3' : ¬i.filename = ['.'] := h3
      simp [h1, h3']
  refine ⟨{ abs := dir.abs, parts := dir.parts ++ [glyphs] ++ ["..".toList] ++ ["images".toList] ++ [i.filename] }, ?_, rfl, ?_⟩
  · unfold GlifImage.file
    simp only [Out.ofOption_some, Out.bind_ok, hpar]
    rw [hp]
    rfl
  · unfold lexical
    simp only [List.foldl_append, List.foldl_cons, List.foldl_nil]
    rw [resolveStep_plain hg, resolveStep_up hg,
      resolveStep_plain (s := "images".toList) (by decide), resolveStep_plain hi.2.2.2, List.append_assoc]
    rfl

/-- The image has the bytes of that file, and the matrix and the colour given in the glyph. -/
theorem C60_loaded (fs : Path → Option (List UInt8)) (i : GlifImage) (glif : Option Path) (img : Image)
    (h : i.toImageOf fs glif = .ok img) :
    ∃ f d, i.file glif = .ok f ∧ fs f = some d ∧ img.filename = f ∧ img.data = .data d ∧ img.state = .loaded ∧
      img.codec = codecOf (d.take 12) ∧ Represents i.m img.matrix ∧ img.color = i.color := by
  unfold GlifImage.toImageOf at h
  cases hf : i.file glif with
  | err e => rw [hf] at h; cases h
  | panic => rw [hf] at h; cases h
  | ok f =>
    rw [hf, Out.bind_ok] at h
    cases hr : fs f with
    | none => rw [hr] at h; cases h
    | some d =>
      rw [hr] at h
      cases h
      exact ⟨f, d, rfl, hr, rfl, rfl, rfl, rfl, affine_represents i.m, rfl⟩

/-- Without a file name of the glyph, or if the file cannot be read, there is an error; it never panics. -/
theorem C60_errors (fs : Path → Option (List UInt8)) (i : GlifImage) (glif : Option Path) :
    (glif = none → i.toImageOf fs glif = .err .filenameNotSet) ∧
    (∀ f, i.file glif = .ok f → fs f = none → i.toImageOf fs glif = .err .imageIo) ∧
    (∀ f d, i.file glif = .ok f → fs f = some d → ∃ img, i.toImageOf fs glif = .ok img) ∧
    i.toImageOf fs glif ≠ .panic := by
  refine ⟨fun h => by rw [h]; rfl, fun f hf hr => ?_, fun f d hf hr => ?_, ?_⟩
  · unfold GlifImage.toImageOf
    rw [hf, Out.bind_ok, hr]
    rfl
  · unfold GlifImage.toImageOf
    rw [hf, Out.bind_ok, hr]
    exact ⟨_, rfl⟩
  · unfold GlifImage.toImageOf
    cases glif with
    | none => intro h; cases h
    | some g =>
      unfold GlifImage.file
      rw [Out.ofOption_some, Out.bind_ok]
      cases g.parent with
      | none => intro h; cases h
      | some d =>
        rw [Out.ofOption_some, Out.bind_ok, Out.bind_ok]
        cases fs _ with
        | none => intro h; cases h
        | some d => intro h; cases h

/-- **C60.** The image of a glyph in a directory of a font, with a plain file name, is the file of that name in `images`:
with its bytes, the codec its signature tells, and the matrix and colour of the glyph.  If there is no such file, reading
fails. -/
theorem C60_image (fs : Path → Option (List UInt8)) (hfs : ByPlace fs) (i : GlifImage) (dir : Path) (glyphs name : Str)
    (hg : glyphs ≠ "..".toList) (hi : PlainName i.filename) :
    (∀ d, fs (imagePath dir i.filename) = some d →
      ∃ img, i.toImageOf fs (some { dir with parts := dir.parts ++ [glyphs, name] }) = .ok img ∧ img.data = .data d ∧
        img.state = .loaded ∧ ToldBySignature d img.codec ∧ Represents i.m img.matrix ∧ img.color = i.color) ∧
    (fs (imagePath dir i.filename) = none →
      i.toImageOf fs (some { dir with parts := dir.parts ++ [glyphs, name] }) = .err .imageIo) := by
  obtain ⟨f, hf, ha, hl⟩ := C60_file i dir glyphs name hg hi
  have he : fs f = fs (imagePath dir i.filename) := by
    refine hfs _ _ ha ?_
    rw [hl]
    unfold imagePath lexical
    simp only [List.foldl_append, List.foldl_cons, List.foldl_nil]
    rw [resolveStep_plain (s := "images".toList) (by decide), resolveStep_plain hi.2.2.2]
    simp
  constructor
  · intro d hd
    obtain ⟨img, hm⟩ := (C60_errors fs i _).2.2.1 f d hf (he.trans hd)
    obtain ⟨f', d', hf', hd', -, h1, h2, h3, h4, h5⟩ := C60_loaded fs i _ img hm
    rw [hf] at hf'
    cases hf'
    rw [he, hd] at hd'
    cases hd'
    exact ⟨img, hm, h1, h2, h3 ▸ C59_signature d, h4, h5⟩
  · intro hn
    exact (C60_errors fs i _).2.1 f hf (he.trans hn)

/-- Names that are not plain lead elsewhere. -/
theorem C60_elsewhere (m : Mat6) (ident : Option Str) (col : Option Color) (dir : Path) :
    (∃ f, (GlifImage.mk "../x".toList m ident col).file (some { dir with parts := dir.parts ++ ["glyphs".toList, "a.glif".toList] }) = .ok f ∧
      lexical f.parts = lexical dir.parts ++ ["x".toList]) ∧
    ∃ f, (GlifImage.mk "/x".toList m ident col).file (some { dir with parts := dir.parts ++ ["glyphs".toList, "a.glif".toList] }) = .ok f ∧
      f = { abs := true, parts := ["x".toList] } := by
  have hpar : Path.parent { dir with parts := dir.parts ++ ["glyphs".toList, "a.glif".toList] } = some { dir with parts := dir.parts ++ ["glyphs".toList] } := by
    unfold Path.parent
    rw [if_neg (by simp)]
    congr 2
    rw [show dir.parts ++ ["glyphs".toList, "a.glif".toList] = (dir.parts ++ ["glyphs".toList]) ++ ["a.glif".toList] by simp, List.dropLast_concat]
  constructor
  · refine ⟨{ abs := dir.abs, parts := dir.parts ++ ["glyphs".toList] ++ ["..".toList] ++ ["images".toList] ++ ["..".toList, "x".toList] }, ?_, ?_⟩
    · unfold GlifImage.file
      simp only [Out.ofOption_some, Out.bind_ok, hpar]
      rw [show Path.ofStr "../x".toList = { abs := false, parts := ["..".toList, "x".toList] } by decide]
      rfl
    · unfold lexical
      simp only [List.foldl_append, List.foldl_cons, List.foldl_nil]
      have hg : "glyphs".toList ≠ "..".toList := by decide
      have hi : "images".toList ≠ "..".toList := by decide
      have hx : "x".toList ≠ "..".toList := by decide
      rw [resolveStep_plain hg, resolveStep_up hg, resolveStep_plain hi, resolveStep_up hi, resolveStep_plain hx]
  · refine ⟨_, ?_, rfl⟩
    unfold GlifImage.file
    simp only [Out.ofOption_some, Out.bind_ok, hpar]
    rw [show Path.ofStr "/x".toList = { abs := true, parts := ["x".toList] } by decide]
    rfl

example : PlainName "sketch.png".toList := by
  unfold PlainName
  decide

/-- A disk with one image. -/
example : ByPlace fun p => if lexical p.parts = ["font".toList, "images".toList, "sketch.png".toList] then some [0x89, 0x50] else none := by
  intro p q _ h
  simp only [h]

end GP
