import Verif.Model.Scanner
import Verif.Spec.Scanner
import Mathlib.Data.List.TakeWhile
import Mathlib.Data.List.Basic
namespace Verif.Scan
open Verif

/-- What a split function has to satisfy so that a scanner yields `T` of the whole text, however the bytes arrive. -/
structure SplitOk (split : Split) (T : Bytes → List Bytes) : Prop where
  eofToken : ∀ d a t, split d true = (a, some t) → 0 < a ∧ a ≤ d.length ∧ T d = t :: T (d.drop a)
  eofNone : ∀ d a, split d true = (a, none) → T d = []
  token : ∀ d a t, split d false = (a, some t) → 0 < a ∧ a ≤ d.length ∧ ∀ m, T (d ++ m) = t :: T (d.drop a ++ m)
  none : ∀ d a, split d false = (a, none) → a ≤ d.length ∧ ∀ m, T (d ++ m) = T (d.drop a ++ m)

/-- Texts on which the scanner never runs out of buffer. -/
structure FitsOk (split : Split) (P : Bytes → Prop) : Prop where
  step : ∀ d m a o, P (d ++ m) → split d false = (a, o) → P (d.drop a ++ m)
  room : ∀ d m, P (d ++ m) → d.length = maxTokenSize → split d false ≠ (0, none)

/-- The text a scanner has not consumed yet. -/
def text (s : Scanner) : Bytes := s.data ++ s.rdr.chunks.flatten

structure Inv (s : Scanner) : Prop where
  fits : s.start + s.data.length ≤ s.size
  size : s.size ≤ maxTokenSize
  nonempty : ∀ c ∈ s.rdr.chunks, c ≠ []
  err : ∀ e, s.err = some e → e = s.rdr.last ∧ s.rdr.chunks = []

/-- `Scan` when the data gives no token. -/
theorem scan_more {split : Split} {s : Scanner} (he : s.err = none) {a : Nat}
    (h : (if s.data.length > 0 then split s.data false else (0, none)) = (a, none)) (fuel : Nat) :
    s.scan split (fuel + 1) = match (s.advance a).shift.grow with
      | none => some (none, { (s.advance a).shift with err := some errTooLong })
      | some s => Scanner.scan split fuel (s.readLoop 101) := by
  have h' : (if s.data.length > 0 ∨ s.err.isSome = true then split s.data s.err.isSome else (0, none)) = (a, none) := by
    rw [← h]; simp [he]
  simp only [Scanner.scan, h']
  have : (s.advance a).err.isSome = false := by simp [Scanner.advance, he]
  simp only [this]
  cases (s.advance a).shift.grow <;> rfl

theorem inv_new {r : Reader} (h : ∀ c ∈ r.chunks, c ≠ []) : Inv (newScanner r) :=
  ⟨by simp [newScanner], by simp [newScanner], h, by simp [newScanner]⟩

theorem inv_advance {s : Scanner} (h : Inv s) {a : Nat} (ha : a ≤ s.data.length) : Inv (s.advance a) := by
  refine ⟨?_, h.size, h.nonempty, h.err⟩
  have := h.fits
  simp only [Scanner.advance, List.length_drop]
  omega

theorem inv_shift {s : Scanner} (h : Inv s) : Inv s.shift := by
  unfold Scanner.shift
  split
  · exact ⟨by have := h.fits; simp only; omega, h.size, h.nonempty, h.err⟩
  · exact h

theorem shift_data (s : Scanner) : s.shift.data = s.data ∧ s.shift.rdr = s.rdr ∧ s.shift.err = s.err ∧
    s.shift.size = s.size := by
  unfold Scanner.shift; split <;> simp

theorem grow_data {s s' : Scanner} (h : s.grow = some s') : s'.data = s.data ∧ s'.rdr = s.rdr ∧ s'.err = s.err := by
  unfold Scanner.grow at h
  split at h
  · split at h
    · simp at h
    · simp at h; subst h; simp
  · simp at h; subst h; simp

theorem inv_grow {s s' : Scanner} (hi : Inv s) (h : s.grow = some s') : Inv s' ∧ s'.start + s'.data.length < s'.size := by
  have h1 := hi.fits
  have h2 := hi.size
  unfold Scanner.grow at h
  split at h
  · rename_i hf
    split at h
    · simp at h
    · rename_i hs
      simp only [Option.some.injEq] at h
      subst h
      have hlen : s.data.length < (min (if s.size = 0 then 4096 else s.size * 2) maxTokenSize) := by
        unfold maxTokenSize at *
        split <;> omega
      refine ⟨⟨by simp only; omega, ?_, hi.nonempty, hi.err⟩, by simp only; omega⟩
      simp only
      exact Nat.min_le_right _ _
  · simp only [Option.some.injEq] at h
    subst h
    exact ⟨hi, by omega⟩

/-- When there is no room left, nothing was skipped and the buffer is full. -/
theorem grow_none {s : Scanner} (hi : Inv s) (h : s.shift.grow = none) : s.start = 0 ∧ s.data.length = maxTokenSize := by
  have h1 := hi.fits
  have h2 := hi.size
  obtain ⟨hd, -, -, hz⟩ := shift_data s
  unfold Scanner.grow at h
  rw [hd, hz] at h
  split at h
  · rename_i hf
    split at h
    · rename_i hs
      unfold Scanner.shift at hf
      split at hf
      · rename_i hc
        simp only at hf
        omega
      · rename_i hc
        omega
    · simp at h
  · simp at h

/-- One read by the inner loop. -/
theorem readLoop_spec {s : Scanner} (hi : Inv s) (he : s.err = none) (hroom : s.start + s.data.length < s.size) (n : Nat) :
    Inv (s.readLoop (n + 1)) ∧ text (s.readLoop (n + 1)) = text s ∧
      (s.readLoop (n + 1)).rdr.last = s.rdr.last ∧ (s.readLoop (n + 1)).rdr.together = s.rdr.together ∧
      (((s.readLoop (n + 1)).err = some s.rdr.last ∧ (s.rdr.together = false → s.rdr.chunks = [])) ∨
        ((s.readLoop (n + 1)).err = none ∧
          (s.readLoop (n + 1)).rdr.chunks.flatten.length < s.rdr.chunks.flatten.length)) := by
  have h1 := hi.fits
  have h3 := hi.nonempty
  unfold Scanner.readLoop Reader.read
  cases hc : s.rdr.chunks with
  | nil =>
    simp only
    refine ⟨⟨by simpa using h1, hi.size, h3, ?_⟩, by simp [text, hc], trivial, trivial, Or.inl ⟨trivial, fun _ => trivial⟩⟩
    intro e h; simp only [Option.some.injEq] at h; exact ⟨h.symm, hc⟩
  | cons c cs =>
    have hcne : c ≠ [] := h3 c (by simp [hc])
    have hcpos : 0 < c.length := List.length_pos_of_ne_nil hcne
    simp only
    by_cases hl : c.length ≤ s.size - (s.start + s.data.length)
    · by_cases hg : cs = [] ∧ s.rdr.together = true
      · simp only [hl, hg, and_self, ↓reduceIte]
        refine ⟨⟨by simp only [List.length_append]; omega, hi.size, by simp, ?_⟩, ?_, trivial, trivial, Or.inl ⟨trivial, by simp⟩⟩
        · intro e h; simp only [Option.some.injEq] at h; exact ⟨h.symm, rfl⟩
        · simp [text, hc, hg.1]
      · simp only [hl, hg, ↓reduceIte, hcpos]
        refine ⟨⟨by simp only [List.length_append]; omega, hi.size, ?_, ?_⟩, ?_, trivial, trivial, Or.inr ⟨he, ?_⟩⟩
        · intro x hx; exact h3 x (by simp [hc, hx])
        · intro e h; simp [he] at h
        · simp [text, hc]
        · simp; omega
    · have hpos : 0 < (c.take (s.size - (s.start + s.data.length))).length := by simp only [List.length_take]; omega
      simp only [hl, ↓reduceIte, hpos]
      refine ⟨⟨by simp only [List.length_append, List.length_take]; omega, hi.size, ?_, ?_⟩, ?_, trivial, trivial, Or.inr ⟨he, ?_⟩⟩
      · intro x hx
        simp only [List.mem_cons] at hx
        rcases hx with hx | hx
        · subst hx; simp; omega
        · exact h3 x (by simp [hc, hx])
      · intro e h; simp [he] at h
      · simp only [text, hc, List.flatten_cons, List.append_assoc]
        rw [← List.append_assoc (List.take _ c), List.take_append_drop]
      · simp only [List.flatten_cons, List.length_append, List.length_drop]; omega

/-- One call of `Scan`. -/
theorem scan_spec {split : Split} {T : Bytes → List Bytes} {P : Bytes → Prop} (hs : SplitOk split T) (hp : FitsOk split P) :
    ∀ (k : Nat) (s : Scanner), s.rdr.chunks.flatten.length + (if s.err = none then 1 else 0) ≤ k → Inv s →
    (s.err = none → P (text s)) →
    ∃ n o s', (∀ fuel, n ≤ fuel → s.scan split fuel = some (o, s')) ∧ s'.rdr.last = s.rdr.last ∧
      match o with
      | some t => Inv s' ∧ T (text s) = t :: T (text s') ∧ (text s').length < (text s).length ∧
          (s'.err = none → P (text s'))
      | none => T (text s) = [] ∧ s'.err = some s.rdr.last := by
  intro k
  induction k with
  | zero =>
    intro s hk hi hP
    have he : s.err ≠ none := by intro h; simp [h] at hk
    obtain ⟨e, he⟩ := Option.ne_none_iff_exists'.1 he
    obtain ⟨hlast, hch⟩ := hi.err e he
    have htext : text s = s.data := by simp [text, hch]
    cases hsp : split s.data true with
    | mk a o =>
      cases o with
      | some t =>
        obtain ⟨h1, h2, h3⟩ := hs.eofToken _ _ _ hsp
        refine ⟨1, some t, s.advance a, ?_, rfl, inv_advance hi h2, ?_, ?_, ?_⟩
        · intro fuel hf
          obtain ⟨f, rfl⟩ : ∃ f, fuel = f + 1 := ⟨fuel - 1, by omega⟩
          simp [Scanner.scan, he, hsp]
        · simp [h3, text, Scanner.advance, hch]
        · simp only [text, Scanner.advance, hch, List.flatten_nil, List.append_nil, List.length_drop]; omega
        · simp [Scanner.advance, he]
      | none =>
        refine ⟨1, none, { s.advance a with data := [], start := 0 }, ?_, rfl, ?_, ?_⟩
        · intro fuel hf
          obtain ⟨f, rfl⟩ : ∃ f, fuel = f + 1 := ⟨fuel - 1, by omega⟩
          simp [Scanner.scan, he, hsp, Scanner.advance]
        · rw [htext]; exact hs.eofNone _ _ hsp
        · simp [Scanner.advance, he, hlast]
  | succ k ih =>
    intro s hk hi hP
    by_cases he : s.err = none
    · have hPt := hP he
      -- the effect of the split function, with the rule that it is not called without data
      have hgo : ∀ a, a ≤ s.data.length → T (text s) = T (text (s.advance a)) → P (text (s.advance a)) →
          (a = 0 → s.data.length ≠ maxTokenSize) →
          (∀ fuel, s.scan split (fuel + 1) = match (s.advance a).shift.grow with
            | none => some (none, { (s.advance a).shift with err := some errTooLong })
            | some s => Scanner.scan split fuel (s.readLoop 101)) →
          ∃ n o s', (∀ fuel, n ≤ fuel → s.scan split fuel = some (o, s')) ∧ s'.rdr.last = s.rdr.last ∧
            match o with
            | some t => Inv s' ∧ T (text s) = t :: T (text s') ∧ (text s').length < (text s).length ∧
                (s'.err = none → P (text s'))
            | none => T (text s) = [] ∧ s'.err = some s.rdr.last := by
        intro a ha hT hPa hroom hscan
        have hia := inv_advance hi ha
        cases hg : (s.advance a).shift.grow with
        | none =>
          exfalso
          obtain ⟨g1, g2⟩ := grow_none hia hg
          simp only [Scanner.advance] at g1 g2
          have : a = 0 := by omega
          subst this
          exact hroom rfl (by simpa using g2)
        | some g =>
          obtain ⟨hgi, hgr⟩ := inv_grow (inv_shift hia) hg
          obtain ⟨gd, gr, ge⟩ := grow_data hg
          obtain ⟨sd, sr, se, -⟩ := shift_data (s.advance a)
          rw [sd] at gd; rw [sr] at gr; rw [se] at ge
          have hgtext : text g = text (s.advance a) := by simp [text, gd, gr]
          have hglast : g.rdr.last = s.rdr.last := by rw [gr]; rfl
          have hgerr : g.err = none := by rw [ge]; exact he
          obtain ⟨ri, rt, rl, -, rm⟩ := readLoop_spec hgi hgerr hgr 100
          have hmeas : (g.readLoop 101).rdr.chunks.flatten.length +
              (if (g.readLoop 101).err = none then 1 else 0) ≤ k := by
            have hgc : g.rdr.chunks = s.rdr.chunks := by rw [gr]; rfl
            simp only [he, ↓reduceIte] at hk
            rcases rm with ⟨r1, -⟩ | ⟨r1, r2⟩
            · have := (ri.err _ r1).2
              simp only [Nat.reduceAdd] at this r1
              simp only [r1, this]
              simp
            · simp only [Nat.reduceAdd] at r1 r2
              rw [hgc] at r2
              simp only [r1, ↓reduceIte]
              omega
          obtain ⟨n, o, s', h1, h2, h3⟩ := ih (g.readLoop 101) hmeas ri (fun _ => by
            simp only [Nat.reduceAdd] at rt
            rw [rt, hgtext]; exact hPa)
          simp only [Nat.reduceAdd] at rt rl
          refine ⟨n + 1, o, s', ?_, by rw [h2, rl, hglast], ?_⟩
          · intro fuel hf
            obtain ⟨f, rfl⟩ : ∃ f, fuel = f + 1 := ⟨fuel - 1, by omega⟩
            rw [hscan f, hg]
            exact h1 f (by omega)
          · have hlen : (text (s.advance a)).length ≤ (text s).length := by
              simp only [text, Scanner.advance, List.length_append, List.length_drop]; omega
            cases o with
            | some t =>
              simp only at h3 ⊢
              rw [rt, hgtext] at h3
              exact ⟨h3.1, by rw [hT]; exact h3.2.1, by omega, h3.2.2.2⟩
            | none =>
              simp only at h3 ⊢
              rw [rt, hgtext, rl, hglast] at h3
              exact ⟨by rw [hT]; exact h3.1, h3.2⟩
      by_cases hd : s.data.length > 0
      · cases hsp : split s.data false with
        | mk a o =>
          cases o with
          | some t =>
            obtain ⟨h1, h2, h3⟩ := hs.token _ _ _ hsp
            refine ⟨1, some t, s.advance a, ?_, rfl, inv_advance hi h2, ?_, ?_, ?_⟩
            · intro fuel hf
              obtain ⟨f, rfl⟩ : ∃ f, fuel = f + 1 := ⟨fuel - 1, by omega⟩
              simp only [Scanner.scan, hd, he]
              simp [hsp]
            · exact h3 _
            · simp only [text, Scanner.advance, List.length_append, List.length_drop]; omega
            · intro _; exact hp.step _ _ _ _ hPt hsp
          | none =>
            obtain ⟨h2, h3⟩ := hs.none _ _ hsp
            refine hgo a h2 (h3 _) (hp.step _ _ _ _ hPt hsp) ?_ ?_
            · rintro rfl hl
              exact hp.room _ _ hPt hl hsp
            · intro fuel
              exact scan_more he (by simpa [hd] using hsp) fuel
      · refine hgo 0 (by omega) ?_ ?_ ?_ ?_
        · simp [Scanner.advance, text]
        · simpa [Scanner.advance, text] using hPt
        · intro _; unfold maxTokenSize; omega
        · intro fuel
          exact scan_more he (by simp [hd]) fuel
    · obtain ⟨e, he'⟩ := Option.ne_none_iff_exists'.1 he
      refine ih s ?_ hi hP
      obtain ⟨-, hch⟩ := hi.err e he'
      simp [hch, he']

theorem all_spec {split : Split} {T : Bytes → List Bytes} {P : Bytes → Prop} (hs : SplitOk split T) (hp : FitsOk split P) :
    ∀ (k : Nat) (s : Scanner), (text s).length ≤ k → Inv s → (s.err = none → P (text s)) →
    s.Yields split (T (text s)) (if s.rdr.last = .eof then none else some s.rdr.last) := by
  intro k
  induction k with
  | zero =>
    intro s hk hi hP
    obtain ⟨n, o, s', h1, h2, h3⟩ := scan_spec hs hp _ s (Nat.le_refl _) hi hP
    cases o with
    | some t => simp only at h3; omega
    | none =>
      simp only at h3
      refine ⟨n + 1, fun fuel hf => ?_⟩
      obtain ⟨f, rfl⟩ : ∃ f, fuel = f + 1 := ⟨fuel - 1, by omega⟩
      simp only [Scanner.all, h1 f (by omega), h3.1, Scanner.error, h3.2, Option.some.injEq]
  | succ k ih =>
    intro s hk hi hP
    obtain ⟨n, o, s', h1, h2, h3⟩ := scan_spec hs hp _ s (Nat.le_refl _) hi hP
    cases o with
    | some t =>
      simp only at h3
      obtain ⟨hi', hT, hl, hP'⟩ := h3
      obtain ⟨n', hn'⟩ := ih s' (by omega) hi' hP'
      refine ⟨max n n' + 1, fun fuel hf => ?_⟩
      obtain ⟨f, rfl⟩ : ∃ f, fuel = f + 1 := ⟨fuel - 1, by omega⟩
      simp only [Scanner.all, h1 f (by omega), hn' f (by omega), hT, h2]
    | none =>
      simp only at h3
      refine ⟨n + 1, fun fuel hf => ?_⟩
      obtain ⟨f, rfl⟩ : ∃ f, fuel = f + 1 := ⟨fuel - 1, by omega⟩
      simp only [Scanner.all, h1 f (by omega), h3.1, Scanner.error, h3.2, Option.some.injEq]

/-- A scanner yields `T` of the bytes the reader delivers. -/
theorem yields_new {split : Split} {T : Bytes → List Bytes} {P : Bytes → Prop} (hs : SplitOk split T) (hp : FitsOk split P)
    {r : Reader} (hr : ∀ c ∈ r.chunks, c ≠ []) (hP : P r.chunks.flatten) :
    (newScanner r).Yields split (T r.chunks.flatten) (if r.last = .eof then none else some r.last) := by
  have := all_spec hs hp _ (newScanner r) (Nat.le_refl _) (inv_new hr) (fun _ => by simpa [text, newScanner] using hP)
  have e : text (newScanner r) = r.chunks.flatten := by simp [text, newScanner]
  rw [e] at this
  exact this

/-- `R ts t`: scanning the text `t` gives the tokens `ts` and then runs out of buffer. -/
structure TruncOk (split : Split) (R : List Bytes → Bytes → Prop) : Prop where
  long : ∀ ts t, R ts t → maxTokenSize < t.length
  token : ∀ ts d m a x, R ts (d ++ m) → d.length ≤ maxTokenSize → split d false = (a, some x) →
    0 < a ∧ a ≤ d.length ∧ ∃ ts', ts = x :: ts' ∧ R ts' (d.drop a ++ m)
  none : ∀ ts d m a, R ts (d ++ m) → d.length ≤ maxTokenSize → split d false = (a, none) →
    a ≤ d.length ∧ R ts (d.drop a ++ m) ∧ (ts ≠ [] → a = 0 → d.length ≠ maxTokenSize)

/-- One `Scan` on such a text. -/
theorem scan_trunc {split : Split} {R : List Bytes → Bytes → Prop} (hq : TruncOk split R) (ts : List Bytes) :
    ∀ (k : Nat) (s : Scanner), s.rdr.chunks.flatten.length + (if s.err = none then 1 else 0) ≤ k → Inv s → s.err = none →
    R ts (text s) →
    ∃ n o s', (∀ fuel, n ≤ fuel → s.scan split fuel = some (o, s')) ∧
      match o with
      | some x => Inv s' ∧ s'.err = none ∧ ∃ ts', ts = x :: ts' ∧ R ts' (text s')
      | none => ts = [] ∧ s'.err = some errTooLong := by
  intro k
  induction k with
  | zero => intro s hk hi he hQ; simp [he] at hk
  | succ k ih =>
    intro s hk hi he hQ
    have hdl : s.data.length ≤ maxTokenSize := by have := hi.fits; have := hi.size; omega
    have hgo : ∀ a, a ≤ s.data.length → R ts (text (s.advance a)) → (ts ≠ [] → a = 0 → s.data.length ≠ maxTokenSize) →
        (∀ fuel, s.scan split (fuel + 1) = match (s.advance a).shift.grow with
          | none => some (none, { (s.advance a).shift with err := some errTooLong })
          | some s => Scanner.scan split fuel (s.readLoop 101)) →
        ∃ n o s', (∀ fuel, n ≤ fuel → s.scan split fuel = some (o, s')) ∧
          match o with
          | some x => Inv s' ∧ s'.err = none ∧ ∃ ts', ts = x :: ts' ∧ R ts' (text s')
          | none => ts = [] ∧ s'.err = some errTooLong := by
      intro a ha hQa hne hscan
      have hia := inv_advance hi ha
      cases hg : (s.advance a).shift.grow with
      | none =>
        refine ⟨1, none, { (s.advance a).shift with err := some errTooLong }, fun fuel hf => ?_, ?_, ?_⟩
        · obtain ⟨f, rfl⟩ : ∃ f, fuel = f + 1 := ⟨fuel - 1, by omega⟩
          rw [hscan f, hg]
        · by_contra hts
          obtain ⟨g1, g2⟩ := grow_none hia hg
          simp only [Scanner.advance] at g1 g2
          have : a = 0 := by omega
          subst this
          exact hne hts rfl (by simpa using g2)
        · rfl
      | some g =>
        obtain ⟨hgi, hgr⟩ := inv_grow (inv_shift hia) hg
        obtain ⟨gd, gr, ge⟩ := grow_data hg
        obtain ⟨sd, sr, se, -⟩ := shift_data (s.advance a)
        rw [sd] at gd; rw [sr] at gr; rw [se] at ge
        have hgtext : text g = text (s.advance a) := by simp [text, gd, gr]
        have hgerr : g.err = none := by rw [ge]; exact he
        obtain ⟨ri, rt, rl, -, rm⟩ := readLoop_spec hgi hgerr hgr 100
        simp only [Nat.reduceAdd] at ri rt rl rm
        have hne : (g.readLoop 101).err = none := by
          rcases rm with ⟨r1, r2⟩ | ⟨r1, r2⟩
          · exfalso
            have hc := (ri.err _ r1).2
            have h1 := hq.long _ _ hQa
            rw [← hgtext, ← rt] at h1
            simp only [text, hc, List.flatten_nil, List.append_nil] at h1
            have := ri.fits; have := ri.size
            omega
          · exact r1
        have hmeas : (g.readLoop 101).rdr.chunks.flatten.length +
            (if (g.readLoop 101).err = none then 1 else 0) ≤ k := by
          have hgc : g.rdr.chunks = s.rdr.chunks := by rw [gr]; rfl
          simp only [he, ↓reduceIte] at hk
          rcases rm with ⟨r1, -⟩ | ⟨r1, r2⟩
          · rw [hne] at r1; simp at r1
          · rw [hgc] at r2
            simp only [r1, ↓reduceIte]
            omega
        obtain ⟨n, o, s', h1, h2⟩ := ih (g.readLoop 101) hmeas ri hne (by rw [rt, hgtext]; exact hQa)
        refine ⟨n + 1, o, s', fun fuel hf => ?_, h2⟩
        obtain ⟨f, rfl⟩ : ∃ f, fuel = f + 1 := ⟨fuel - 1, by omega⟩
        rw [hscan f, hg]
        exact h1 f (by omega)
    by_cases hd : s.data.length > 0
    · cases hsp : split s.data false with
      | mk a o =>
        cases o with
        | some t =>
          obtain ⟨h1, h2, h3⟩ := hq.token _ _ _ _ _ hQ hdl hsp
          refine ⟨1, some t, s.advance a, ?_, inv_advance hi h2, he, h3⟩
          intro fuel hf
          obtain ⟨f, rfl⟩ : ∃ f, fuel = f + 1 := ⟨fuel - 1, by omega⟩
          simp only [Scanner.scan, hd, he]
          simp [hsp]
        | none =>
          obtain ⟨h1, h2, h3⟩ := hq.none _ _ _ _ hQ hdl hsp
          refine hgo a h1 h2 h3 ?_
          intro fuel
          exact scan_more he (by simpa [hd] using hsp) fuel
    · refine hgo 0 (by omega) ?_ ?_ ?_
      · simpa [Scanner.advance, text] using hQ
      · intro _ _; unfold maxTokenSize; omega
      · intro fuel
        exact scan_more he (by simp [hd]) fuel

theorem all_trunc {split : Split} {R : List Bytes → Bytes → Prop} (hq : TruncOk split R) :
    ∀ (ts : List Bytes) (s : Scanner), Inv s → s.err = none → R ts (text s) → s.Yields split ts (some errTooLong) := by
  intro ts
  induction ts with
  | nil =>
    intro s hi he hR
    obtain ⟨n, o, s', h1, h2⟩ := scan_trunc hq _ _ s (Nat.le_refl _) hi he hR
    cases o with
    | some x =>
      simp only at h2
      obtain ⟨-, -, ts', h, -⟩ := h2
      simp at h
    | none =>
      simp only at h2
      refine ⟨n + 1, fun fuel hf => ?_⟩
      obtain ⟨f, rfl⟩ : ∃ f, fuel = f + 1 := ⟨fuel - 1, by omega⟩
      simp [Scanner.all, h1 f (by omega), Scanner.error, h2.2, errTooLong]
  | cons t ts ih =>
    intro s hi he hR
    obtain ⟨n, o, s', h1, h2⟩ := scan_trunc hq _ _ s (Nat.le_refl _) hi he hR
    cases o with
    | some x =>
      simp only at h2
      obtain ⟨hi', he', ts', h, hR'⟩ := h2
      simp only [List.cons.injEq] at h
      obtain ⟨rfl, rfl⟩ := h
      obtain ⟨n', hn'⟩ := ih s' hi' he' hR'
      refine ⟨max n n' + 1, fun fuel hf => ?_⟩
      obtain ⟨f, rfl⟩ : ∃ f, fuel = f + 1 := ⟨fuel - 1, by omega⟩
      simp only [Scanner.all, h1 f (by omega), hn' f (by omega)]
    | none => simp only at h2; simp at h2

theorem yields_trunc {split : Split} {R : List Bytes → Bytes → Prop} (hq : TruncOk split R) {ts : List Bytes}
    {r : Reader} (hr : ∀ c ∈ r.chunks, c ≠ []) (hR : R ts r.chunks.flatten) :
    (newScanner r).Yields split ts (some errTooLong) :=
  all_trunc hq ts (newScanner r) (inv_new hr) rfl (by simpa [text, newScanner] using hR)

/-- The loop has one result. -/
theorem yields_unique {split : Split} {s : Scanner} {a b : List Bytes} {e e' : Option Err} (h : s.Yields split a e)
    (h' : s.Yields split b e') : a = b ∧ e = e' := by
  obtain ⟨n, h⟩ := h
  obtain ⟨n', h'⟩ := h'
  have := (h (max n n') (by omega)).symm.trans (h' (max n n') (by omega))
  simpa using this

/-! ### Lines -/

theorem lines_nil : Spec.lines [] = [] := by simp [Spec.lines]

theorem lines_cons {l m : Bytes} (h : 10 ∉ l) : Spec.lines (l ++ 10 :: m) = Spec.chomp l :: Spec.lines m := by
  unfold Spec.lines
  rw [List.splitOn_append_cons_self_of_not_mem h]
  obtain ⟨x, xs, hx⟩ := List.exists_cons_of_ne_nil (List.splitOn_ne_nil 10 m)
  rw [hx]
  simp only [List.getLast?_cons_cons, List.dropLast_cons_cons]
  split <;> simp

theorem lines_last {l : Bytes} (h : 10 ∉ l) (hne : l ≠ []) : Spec.lines l = [Spec.chomp l] := by
  unfold Spec.lines
  rw [List.splitOn_eq_singleton h]
  simp [hne]

theorem takeWhile_line {d : Bytes} : 10 ∉ d.takeWhile (· != 10) := by
  intro h
  have := List.mem_takeWhile_imp h
  simp at this

theorem line_cases (d : Bytes) : (10 ∉ d ∧ d.takeWhile (· != 10) = d) ∨
    ∃ m, d = d.takeWhile (· != 10) ++ 10 :: m := by
  by_cases h : 10 ∈ d
  · right
    obtain ⟨l, m, hd, hl⟩ := List.eq_append_cons_of_mem h
    refine ⟨m, ?_⟩
    have : d.takeWhile (· != 10) = l := by
      rw [hd, List.takeWhile_append_of_pos]
      · simp
      · intro x hx
        simp only [bne_iff_ne, ne_eq]
        rintro rfl
        exact hl hx
    rw [this]; exact hd
  · left
    refine ⟨h, List.takeWhile_eq_self_iff.2 ?_⟩
    intro x hx
    simp only [bne_iff_ne, ne_eq]
    rintro rfl
    exact h hx

theorem scanLines_found {l m : Bytes} (h : 10 ∉ l) (eof : Bool) :
    scanLines (l ++ 10 :: m) eof = (l.length + 1, some (dropCR l)) := by
  have ht : (l ++ 10 :: m).takeWhile (· != 10) = l := by
    rw [List.takeWhile_append_of_pos]
    · simp
    · intro x hx
      simp only [bne_iff_ne, ne_eq]
      rintro rfl
      exact h hx
  simp [scanLines, ht]

theorem scanLines_open {l : Bytes} (h : 10 ∉ l) : scanLines l false = (0, none) := by
  have ht : l.takeWhile (· != 10) = l := by
    refine List.takeWhile_eq_self_iff.2 fun x hx => ?_
    simp only [bne_iff_ne, ne_eq]
    rintro rfl
    exact h hx
  simp [scanLines, ht]

theorem scanLines_eof {l : Bytes} (h : 10 ∉ l) :
    scanLines l true = if l.length = 0 then (0, none) else (l.length, some (dropCR l)) := by
  have ht : l.takeWhile (· != 10) = l := by
    refine List.takeWhile_eq_self_iff.2 fun x hx => ?_
    simp only [bne_iff_ne, ne_eq]
    rintro rfl
    exact h hx
  simp [scanLines, ht]

theorem drop_line (l m : Bytes) : (l ++ 10 :: m).drop (l.length + 1) = m := by simp

theorem dropCR_eq (l : Bytes) : dropCR l = Spec.chomp l := rfl

theorem scanLines_ok : SplitOk scanLines Spec.lines where
  eofToken := by
    intro d a t h
    rcases line_cases d with ⟨hn, -⟩ | ⟨m, hm⟩
    · rw [scanLines_eof hn] at h
      split at h
      · simp at h
      · rename_i hl
        simp only [Prod.mk.injEq, Option.some.injEq] at h
        obtain ⟨rfl, rfl⟩ := h
        refine ⟨by omega, Nat.le_refl _, ?_⟩
        rw [lines_last hn (by rintro rfl; simp at hl)]
        simp [lines_nil, dropCR_eq]
    · rw [hm, scanLines_found takeWhile_line] at h
      simp only [Prod.mk.injEq, Option.some.injEq] at h
      obtain ⟨rfl, rfl⟩ := h
      refine ⟨by omega, ?_, ?_⟩
      · have := congrArg List.length hm; simp only [List.length_append, List.length_cons] at this; omega
      · obtain ⟨l, hl⟩ : ∃ l, l = d.takeWhile (· != 10) := ⟨_, rfl⟩
        have hnl : 10 ∉ l := hl ▸ takeWhile_line
        rw [← hl] at hm ⊢
        rw [hm, drop_line, lines_cons hnl, dropCR_eq]
  eofNone := by
    intro d a h
    rcases line_cases d with ⟨hn, -⟩ | ⟨m, hm⟩
    · rw [scanLines_eof hn] at h
      split at h
      · rename_i hl
        rw [List.length_eq_zero_iff.1 hl, lines_nil]
      · simp at h
    · rw [hm, scanLines_found takeWhile_line] at h
      simp at h
  token := by
    intro d a t h
    rcases line_cases d with ⟨hn, -⟩ | ⟨m, hm⟩
    · rw [scanLines_open hn] at h
      simp at h
    · obtain ⟨l, hl⟩ : ∃ l, l = d.takeWhile (· != 10) := ⟨_, rfl⟩
      have hnl : 10 ∉ l := hl ▸ takeWhile_line
      rw [← hl] at hm
      rw [hm, scanLines_found hnl] at h
      simp only [Prod.mk.injEq, Option.some.injEq] at h
      obtain ⟨rfl, rfl⟩ := h
      refine ⟨by omega, ?_, ?_⟩
      · have := congrArg List.length hm; simp only [List.length_append, List.length_cons] at this; omega
      · intro r
        rw [hm, drop_line, List.append_assoc, List.cons_append, lines_cons hnl, dropCR_eq]
  none := by
    intro d a h
    rcases line_cases d with ⟨hn, -⟩ | ⟨m, hm⟩
    · rw [scanLines_open hn] at h
      simp only [Prod.mk.injEq, and_true] at h
      subst h
      simp
    · rw [hm, scanLines_found takeWhile_line] at h
      simp at h

/-- No stretch of `maxTokenSize` bytes without a newline. -/
def ShortLines (text : Bytes) : Prop := ∀ l ∈ text.splitOn 10, l.length < maxTokenSize

theorem shortLines_cons {l m : Bytes} (h : 10 ∉ l) : ShortLines (l ++ 10 :: m) ↔ l.length < maxTokenSize ∧ ShortLines m := by
  unfold ShortLines
  rw [List.splitOn_append_cons_self_of_not_mem h]
  simp

theorem shortLines_head {l m : Bytes} (h : 10 ∉ l) (hs : ShortLines (l ++ m)) : l.length < maxTokenSize := by
  rcases line_cases m with ⟨hn, -⟩ | ⟨m', hm⟩
  · have := hs (l ++ m) (by rw [List.splitOn_eq_singleton (by simp [h, hn])]; simp)
    simp only [List.length_append] at this; omega
  · have hlm : 10 ∉ l ++ m.takeWhile (· != 10) := by
      simp only [List.mem_append, not_or]; exact ⟨h, takeWhile_line⟩
    rw [hm, ← List.append_assoc, shortLines_cons hlm] at hs
    have := hs.1
    simp only [List.length_append] at this; omega

theorem scanLines_fits : FitsOk scanLines ShortLines where
  step := by
    intro d m a o hP h
    rcases line_cases d with ⟨hn, -⟩ | ⟨r, hm⟩
    · rw [scanLines_open hn] at h
      simp only [Prod.mk.injEq] at h
      obtain ⟨rfl, rfl⟩ := h
      simpa using hP
    · obtain ⟨l, hl⟩ : ∃ l, l = d.takeWhile (· != 10) := ⟨_, rfl⟩
      have hnl : 10 ∉ l := hl ▸ takeWhile_line
      rw [← hl] at hm
      rw [hm, scanLines_found hnl] at h
      simp only [Prod.mk.injEq] at h
      obtain ⟨rfl, -⟩ := h
      rw [hm, List.append_assoc, List.cons_append, shortLines_cons hnl] at hP
      rw [hm, drop_line]
      exact hP.2
  room := by
    intro d m hP hd h
    rcases line_cases d with ⟨hn, -⟩ | ⟨r, hm⟩
    · have := shortLines_head hn hP; omega
    · rw [hm, scanLines_found takeWhile_line] at h
      simp at h

/-- Short lines, then a line of more than `maxTokenSize` bytes. -/
def LongAfter (ts : List Bytes) (text : Bytes) : Prop :=
  ∃ (pre : List Bytes) (long rest : Bytes), text = (pre.flatMap fun l => l ++ [10]) ++ (long ++ rest) ∧ ts = pre.map Spec.chomp ∧
    (∀ l ∈ pre, 10 ∉ l ∧ l.length < maxTokenSize) ∧ 10 ∉ long ∧ maxTokenSize < long.length

theorem scanLines_trunc : TruncOk scanLines LongAfter where
  long := by
    rintro ts t ⟨pre, long, rest, rfl, -, -, -, h⟩
    simp only [List.length_append]; omega
  token := by
    rintro ts d m a x ⟨pre, long, rest, ht, hts, hpre, hlong, hlen⟩ hd h
    rcases line_cases d with ⟨hn, -⟩ | ⟨r, hm⟩
    · rw [scanLines_open hn] at h; simp at h
    · obtain ⟨l, hl⟩ : ∃ l, l = d.takeWhile (· != 10) := ⟨_, rfl⟩
      have hnl : 10 ∉ l := hl ▸ takeWhile_line
      rw [← hl] at hm
      rw [hm, scanLines_found hnl] at h
      simp only [Prod.mk.injEq, Option.some.injEq] at h
      obtain ⟨rfl, rfl⟩ := h
      have hdl := congrArg List.length hm
      simp only [List.length_append, List.length_cons] at hdl
      refine ⟨by omega, by omega, ?_⟩
      rw [hm, drop_line]
      rw [hm] at ht
      simp only [List.append_assoc, List.cons_append] at ht
      cases pre with
      | nil =>
        exfalso
        simp only [List.flatMap_nil, List.nil_append] at ht
        have h1 : (l ++ 10 :: (r ++ m)).take long.length = long := by rw [ht]; simp
        apply hlong
        rw [← h1, List.take_append]
        apply List.mem_append_right
        have : 0 < long.length - l.length := by omega
        obtain ⟨q, hq⟩ : ∃ q, long.length - l.length = q + 1 := ⟨_, (Nat.succ_pred_eq_of_pos this).symm⟩
        rw [hq]; simp
      | cons p pre =>
        simp only [List.flatMap_cons, List.append_assoc, List.cons_append, List.nil_append] at ht
        obtain ⟨hp1, hp2⟩ := hpre p (by simp)
        have hlp : l = p ∧ r ++ m = (pre.flatMap fun l => l ++ [10]) ++ (long ++ rest) := by
          have e := congrArg (List.takeWhile (· != 10)) ht
          have t1 : ∀ (x y : Bytes), 10 ∉ x → (x ++ 10 :: y).takeWhile (· != 10) = x := by
            intro x y hx
            rw [List.takeWhile_append_of_pos]
            · simp
            · intro z hz
              simp only [bne_iff_ne, ne_eq]
              rintro rfl
              exact hx hz
          rw [t1 _ _ hnl, t1 _ _ hp1] at e
          subst e
          simpa using ht
        exact ⟨pre.map Spec.chomp, by rw [hts, hlp.1]; rfl, pre, long, rest, hlp.2, rfl,
          fun l hl => hpre l (by simp [hl]), hlong, hlen⟩
  none := by
    rintro ts d m a ⟨pre, long, rest, ht, hts, hpre, hlong, hlen⟩ hd h
    rcases line_cases d with ⟨hn, -⟩ | ⟨r, hm⟩
    · rw [scanLines_open hn] at h
      simp only [Prod.mk.injEq, and_true] at h
      subst h
      refine ⟨by omega, ⟨pre, long, rest, by simpa using ht, hts, hpre, hlong, hlen⟩, ?_⟩
      intro hne _ hdl
      cases pre with
      | nil => simp at hts; exact hne hts
      | cons p pre =>
        obtain ⟨hp1, hp2⟩ := hpre p (by simp)
        have h1 := congrArg (List.take maxTokenSize) ht
        rw [List.take_append_of_le_length (by omega), List.take_of_length_le (by omega)] at h1
        apply hn
        rw [h1]
        simp only [List.flatMap_cons, List.append_assoc, List.cons_append, List.nil_append]
        rw [List.take_append]
        apply List.mem_append_right
        obtain ⟨q, hq⟩ : ∃ q, maxTokenSize - p.length = q + 1 := ⟨maxTokenSize - p.length - 1, by omega⟩
        rw [hq]; simp
    · rw [hm, scanLines_found takeWhile_line] at h; simp at h

end Verif.Scan
