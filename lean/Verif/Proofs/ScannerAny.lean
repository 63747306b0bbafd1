import Verif.Proofs.Scanner
/-! A scanner on any text: it always ends, and unless it reports "token too long" it has delivered everything. -/
namespace Verif.Scan
open Verif

/-- One call of `Scan`, on any text. -/
theorem scan_any {split : Split} {T : Bytes → List Bytes} (hs : SplitOk split T) :
    ∀ (k : Nat) (s : Scanner), s.rdr.chunks.flatten.length + (if s.err = none then 1 else 0) ≤ k → Inv s →
    ∃ n o s', (∀ fuel, n ≤ fuel → s.scan split fuel = some (o, s')) ∧ s'.rdr.last = s.rdr.last ∧
      match o with
      | some t => Inv s' ∧ T (text s) = t :: T (text s') ∧ (text s').length < (text s).length
      | none => (T (text s) = [] ∧ s'.err = some s.rdr.last) ∨ s'.err = some errTooLong := by
  intro k
  induction k with
  | zero =>
    intro s hk hi
    have he : s.err ≠ none := by intro h; simp [h] at hk
    obtain ⟨e, he⟩ := Option.ne_none_iff_exists'.1 he
    obtain ⟨hlast, hch⟩ := hi.err e he
    have htext : text s = s.data := by simp [text, hch]
    cases hsp : split s.data true with
    | mk a o =>
      cases o with
      | some t =>
        obtain ⟨h1, h2, h3⟩ := hs.eofToken _ _ _ hsp
        refine ⟨1, some t, s.advance a, ?_, rfl, inv_advance hi h2, ?_, ?_⟩
        · intro fuel hf
          obtain ⟨f, rfl⟩ : ∃ f, fuel = f + 1 := ⟨fuel - 1, by omega⟩
          simp [Scanner.scan, he, hsp]
        · simp [h3, text, Scanner.advance, hch]
        · simp only [text, Scanner.advance, hch, List.flatten_nil, List.append_nil, List.length_drop]; omega
      | none =>
        refine ⟨1, none, { s.advance a with data := [], start := 0 }, ?_, rfl, .inl ⟨?_, ?_⟩⟩
        · intro fuel hf
          obtain ⟨f, rfl⟩ : ∃ f, fuel = f + 1 := ⟨fuel - 1, by omega⟩
          simp [Scanner.scan, he, hsp, Scanner.advance]
        · rw [htext]; exact hs.eofNone _ _ hsp
        · simp [Scanner.advance, he, hlast]
  | succ k ih =>
    intro s hk hi
    by_cases he : s.err = none
    · have hgo : ∀ a, a ≤ s.data.length → T (text s) = T (text (s.advance a)) →
          (∀ fuel, s.scan split (fuel + 1) = match (s.advance a).shift.grow with
            | none => some (none, { (s.advance a).shift with err := some errTooLong })
            | some s => Scanner.scan split fuel (s.readLoop 101)) →
          ∃ n o s', (∀ fuel, n ≤ fuel → s.scan split fuel = some (o, s')) ∧ s'.rdr.last = s.rdr.last ∧
            match o with
            | some t => Inv s' ∧ T (text s) = t :: T (text s') ∧ (text s').length < (text s).length
            | none => (T (text s) = [] ∧ s'.err = some s.rdr.last) ∨ s'.err = some errTooLong := by
        intro a ha hT hscan
        have hia := inv_advance hi ha
        cases hg : (s.advance a).shift.grow with
        | none =>
          refine ⟨1, none, { (s.advance a).shift with err := some errTooLong }, ?_, ?_, .inr rfl⟩
          · intro fuel hf
            obtain ⟨f, rfl⟩ : ∃ f, fuel = f + 1 := ⟨fuel - 1, by omega⟩
            rw [hscan f, hg]
          · show (s.advance a).shift.rdr.last = _
            rw [(shift_data (s.advance a)).2.1]; rfl
        | some g =>
          obtain ⟨hgi, hgr⟩ := inv_grow (inv_shift hia) hg
          obtain ⟨gd, gr, ge⟩ := grow_data hg
          obtain ⟨sd, sr, se, -⟩ := shift_data (s.advance a)
          rw [sd] at gd; rw [sr] at gr; rw [se] at ge
          have hgtext : text g = text (s.advance a) := by simp [text, gd, gr]
          have hglast : g.rdr.last = s.rdr.last := by rw [gr]; rfl
          have hgerr : g.err = none := by rw [ge]; exact he
          obtain ⟨ri, rt, rl, -, rm⟩ := readLoop_spec hgi hgerr hgr 100
          have hmeas : (g.readLoop 101).rdr.chunks.flatten.length +
              (if (g.readLoop 101).err = none then 1 else 0) ≤ k := by
            have hgc : g.rdr.chunks = s.rdr.chunks := by rw [gr]; rfl
            simp only [he, ↓reduceIte] at hk
            rcases rm with ⟨r1, -⟩ | ⟨r1, r2⟩
            · have := (ri.err _ r1).2
              simp only [Nat.reduceAdd] at this r1
              simp only [r1, this]
              simp
            · simp only [Nat.reduceAdd] at r1 r2
              rw [hgc] at r2
              simp only [r1, ↓reduceIte]
              omega
          obtain ⟨n, o, s', h1, h2, h3⟩ := ih (g.readLoop 101) hmeas ri
          simp only [Nat.reduceAdd] at rt rl
          refine ⟨n + 1, o, s', ?_, by rw [h2, rl, hglast], ?_⟩
          · intro fuel hf
            obtain ⟨f, rfl⟩ : ∃ f, fuel = f + 1 := ⟨fuel - 1, by omega⟩
            rw [hscan f, hg]
            exact h1 f (by omega)
          · have hlen : (text (s.advance a)).length ≤ (text s).length := by
              simp only [text, Scanner.advance, List.length_append, List.length_drop]; omega
            cases o with
            | some t =>
              simp only at h3 ⊢
              rw [rt, hgtext] at h3
              exact ⟨h3.1, by rw [hT]; exact h3.2.1, by omega⟩
            | none =>
              simp only at h3 ⊢
              rw [rt, hgtext, rl, hglast] at h3
              rw [hT]; exact h3
      by_cases hd : s.data.length > 0
      · cases hsp : split s.data false with
        | mk a o =>
          cases o with
          | some t =>
            obtain ⟨h1, h2, h3⟩ := hs.token _ _ _ hsp
            refine ⟨1, some t, s.advance a, ?_, rfl, inv_advance hi h2, ?_, ?_⟩
            · intro fuel hf
              obtain ⟨f, rfl⟩ : ∃ f, fuel = f + 1 := ⟨fuel - 1, by omega⟩
              simp only [Scanner.scan, hd, he]
              simp [hsp]
            · exact h3 _
            · simp only [text, Scanner.advance, List.length_append, List.length_drop]; omega
          | none =>
            obtain ⟨h2, h3⟩ := hs.none _ _ hsp
            refine hgo a h2 (h3 _) ?_
            intro fuel
            exact scan_more he (by simpa [hd] using hsp) fuel
      · refine hgo 0 (by omega) ?_ ?_
        · simp [Scanner.advance, text]
        · intro fuel
          exact scan_more he (by simp [hd]) fuel
    · obtain ⟨e, he'⟩ := Option.ne_none_iff_exists'.1 he
      refine ih s ?_ hi
      obtain ⟨-, hch⟩ := hi.err e he'
      simp [hch, he']

theorem all_any {split : Split} {T : Bytes → List Bytes} (hs : SplitOk split T) :
    ∀ (k : Nat) (s : Scanner), (text s).length ≤ k → Inv s →
    s.Yields split (T (text s)) (if s.rdr.last = .eof then none else some s.rdr.last) ∨
      ∃ ts, ts <+: T (text s) ∧ s.Yields split ts (some errTooLong) := by
  intro k
  induction k with
  | zero =>
    intro s hk hi
    obtain ⟨n, o, s', h1, h2, h3⟩ := scan_any hs _ s (Nat.le_refl _) hi
    cases o with
    | some t => simp only at h3; omega
    | none =>
      simp only at h3
      rcases h3 with h3 | h3
      · refine .inl ⟨n + 1, fun fuel hf => ?_⟩
        obtain ⟨f, rfl⟩ : ∃ f, fuel = f + 1 := ⟨fuel - 1, by omega⟩
        simp only [Scanner.all, h1 f (by omega), h3.1, Scanner.error, h3.2, Option.some.injEq]
      · refine .inr ⟨[], List.nil_prefix, n + 1, fun fuel hf => ?_⟩
        obtain ⟨f, rfl⟩ : ∃ f, fuel = f + 1 := ⟨fuel - 1, by omega⟩
        simp [Scanner.all, h1 f (by omega), Scanner.error, h3, errTooLong]
  | succ k ih =>
    intro s hk hi
    obtain ⟨n, o, s', h1, h2, h3⟩ := scan_any hs _ s (Nat.le_refl _) hi
    cases o with
    | some t =>
      simp only at h3
      obtain ⟨hi', hT, hl⟩ := h3
      rcases ih s' (by omega) hi' with ⟨n', hn'⟩ | ⟨ts, hp, n', hn'⟩
      · refine .inl ⟨max n n' + 1, fun fuel hf => ?_⟩
        obtain ⟨f, rfl⟩ : ∃ f, fuel = f + 1 := ⟨fuel - 1, by omega⟩
        simp only [Scanner.all, h1 f (by omega), hn' f (by omega), hT, h2]
      · refine .inr ⟨t :: ts, by rw [hT]; exact List.cons_prefix_cons.2 ⟨rfl, hp⟩, max n n' + 1, fun fuel hf => ?_⟩
        obtain ⟨f, rfl⟩ : ∃ f, fuel = f + 1 := ⟨fuel - 1, by omega⟩
        simp only [Scanner.all, h1 f (by omega), hn' f (by omega)]
    | none =>
      simp only at h3
      rcases h3 with h3 | h3
      · refine .inl ⟨n + 1, fun fuel hf => ?_⟩
        obtain ⟨f, rfl⟩ : ∃ f, fuel = f + 1 := ⟨fuel - 1, by omega⟩
        simp only [Scanner.all, h1 f (by omega), h3.1, Scanner.error, h3.2, Option.some.injEq]
      · refine .inr ⟨[], List.nil_prefix, n + 1, fun fuel hf => ?_⟩
        obtain ⟨f, rfl⟩ : ∃ f, fuel = f + 1 := ⟨fuel - 1, by omega⟩
        simp [Scanner.all, h1 f (by omega), Scanner.error, h3, errTooLong]

/-- A scanner over a reader always ends: it has delivered everything and reports how the reader ended, or it has delivered the
beginning and reports a token that is too long. -/
theorem yields_any {split : Split} {T : Bytes → List Bytes} (hs : SplitOk split T) {r : Reader} (hr : ∀ c ∈ r.chunks, c ≠ []) :
    (newScanner r).Yields split (T r.chunks.flatten) (if r.last = .eof then none else some r.last) ∨
      ∃ ts, ts <+: T r.chunks.flatten ∧ (newScanner r).Yields split ts (some errTooLong) := by
  have := all_any hs _ (newScanner r) (Nat.le_refl _) (inv_new hr)
  have e : text (newScanner r) = r.chunks.flatten := by simp [text, newScanner]
  rw [e] at this
  exact this

/-- If no error is reported everything has been delivered. -/
theorem yields_no_error {split : Split} {T : Bytes → List Bytes} (hs : SplitOk split T) {r : Reader} (hr : ∀ c ∈ r.chunks, c ≠ [])
    {ts : List Bytes} (h : (newScanner r).Yields split ts none) : ts = T r.chunks.flatten ∧ r.last = .eof := by
  rcases yields_any hs hr with h' | ⟨ts', _, h'⟩
  · obtain ⟨h1, h2⟩ := yields_unique h h'
    refine ⟨h1, ?_⟩
    by_contra hne
    rw [if_neg hne] at h2
    cases h2
  · cases (yields_unique h h').2

end Verif.Scan
