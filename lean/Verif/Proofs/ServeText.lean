import Verif.Proofs.NGram
import Verif.Proofs.Text
import Verif.Model.WirePredict
import Mathlib.Data.List.TakeWhile
/- How many terms a request can have: not more than its target has bytes. -/
namespace Verif.Serve
open Verif Spec Verif.Wire

/-- Every rune is encoded as some character. -/
theorem encodeRune_any (r : Nat) : ∃ c : Char, encodeRune r = String.utf8EncodeChar c := by
  by_cases h : r < 0xD800 ∨ (0xE000 ≤ r ∧ r < 0x110000)
  · have hv : r.isValidChar := by
      rcases h with h | ⟨h1, h2⟩
      · exact .inl h
      · exact .inr ⟨by omega, h2⟩
    refine ⟨Char.ofNat r, ?_⟩
    rw [← encodeRune_char]
    congr 1
    simp [Char.ofNat, hv, Char.ofNatAux, Char.toNat]
  · refine ⟨Char.ofNat 0xFFFD, ?_⟩
    have : encodeRune r = [0xEF, 0xBF, 0xBD] := by
      unfold encodeRune
      rw [if_neg (by omega), if_neg (by omega), if_pos (by omega)]
    rw [this]
    decide

theorem encodeRunes_any (rs : List Nat) : ∃ t : List Char, rs.flatMap encodeRune = utf8 t ∧ t.length = rs.length := by
  induction rs with
  | nil => exact ⟨[], rfl, rfl⟩
  | cons r rs ih =>
    obtain ⟨t, h1, h2⟩ := ih
    obtain ⟨c, hc⟩ := encodeRune_any r
    refine ⟨c :: t, ?_, by simp [h2]⟩
    rw [List.flatMap_cons, h1, hc]
    rfl

theorem charsOf_length_le (s : Bytes) : (charsOf s).length ≤ s.length := by
  have : ∀ l : List (Nat × Bytes), (∀ c ∈ l, c.2 ≠ []) → l.length ≤ (joinChars l).length := by
    intro l hl
    induction l with
    | nil => simp
    | cons c l ih =>
      have h1 := ih fun x hx => hl x (List.mem_cons_of_mem _ hx)
      have h2 := List.length_pos_iff.2 (hl c List.mem_cons_self)
      simp only [joinChars_cons, List.length_append, List.length_cons]
      omega
  have h := this (charsOf s) fun c hc => charsOf_ne_nil hc
  rwa [joinChars_charsOf] at h

theorem eraseDups_length {α : Type} [BEq α] [LawfulBEq α] (l : List α) : l.eraseDups.length ≤ l.length := by
  induction h : l.length using Nat.strong_induction_on generalizing l with
  | _ n ih =>
    cases l with
    | nil => simp
    | cons a l =>
      rw [List.eraseDups_cons, List.length_cons]
      simp only [List.length_cons] at h
      have hl := List.length_filter_le (fun b => !b == a) l
      have := ih (l.filter fun b => !b == a).length (by omega) _ rfl
      omega

/-- The n-grams of a text are not more than its characters. -/
theorem nGramTokenize_length {n : Nat} (hn : 1 ≤ n) (hn8 : n ≤ 8) (text : Bytes) :
    ∃ toks, nGramTokenize n text = .ok toks ∧ toks.length ≤ (charsOf text).length := by
  refine ⟨_, nGramTokenize_eq hn hn8 text, ?_⟩
  split
  · simp
  · rename_i h
    have hne : charsOf text ≠ [] := by
      intro e
      have := joinChars_charsOf text
      rw [e] at this
      rw [← this] at h
      simp at h
      omega
    have := List.length_pos_iff.2 hne
    split
    · exact this
    · refine (eraseDups_length _).trans ?_
      simp only [List.length_map, windows, List.length_range]
      omega

/-- The terms of a text are not more than the bytes of the text. -/
theorem filterTokenize_length {lower : Nat → Nat} {n : Nat} (hn : 1 ≤ n) (hn8 : n ≤ 8) (filter : List Bytes → List Bytes)
    (hfil : ∀ l, (filter l).length = l.length) (text : Bytes) :
    ∃ toks, filterTokenize lower (nGramTokenize n) filter text = .ok toks ∧ toks.length ≤ text.length := by
  obtain ⟨t, h1, h2⟩ := encodeRunes_any ((runesOf text).map lower)
  have e : toLowerText lower text = utf8 t := by rw [← h1, List.flatMap_map]; rfl
  obtain ⟨toks, h3, h4⟩ := nGramTokenize_length hn hn8 (utf8 (Spec.trim ' ' t))
  refine ⟨filter toks, ?_, ?_⟩
  · unfold filterTokenize
    rw [e, trimSpaces_utf8, h3]
    rfl
  · rw [hfil]
    rw [charsOf_utf8, List.length_map] at h4
    have h5 : (Spec.trim ' ' t).length ≤ t.length := by
      unfold Spec.trim
      rw [List.length_reverse]
      refine (List.length_dropWhile_le _ _).trans ?_
      rw [List.length_reverse]
      exact List.length_dropWhile_le _ _
    rw [List.length_map, runesOf_eq, List.length_map] at h2
    have := charsOf_length_le text
    omega

section
variable {lower : Nat → Nat} {sort : List Alphabet → List Alphabet} {d : TokenConf} (hn : 1 ≤ d.nGramSize) (hn8 : d.nGramSize ≤ 8)
include hn hn8

theorem suggestTokenizer_length (text : Bytes) : ∃ toks, suggestTokenizer lower sort d text = .ok toks ∧
    toks.length ≤ d.wrapStart.length + text.length + d.wrapEnd.length := by
  obtain ⟨toks, h1, h2⟩ := filterTokenize_length (lower := lower) hn hn8
    (normalizeFilter (Alphabet.create sort d.alphabet) d.pad) (by simp [normalizeFilter]) (d.wrapStart ++ text ++ d.wrapEnd)
  exact ⟨toks, h1, by simpa [Nat.add_assoc] using h2⟩

theorem autocompleteTokenizer_length (text : Bytes) : ∃ toks, autocompleteTokenizer lower sort d text = .ok toks ∧
    toks.length ≤ d.wrapStart.length + text.length := by
  obtain ⟨toks, h1, h2⟩ := filterTokenize_length (lower := lower) hn hn8
    (normalizeFilter (Alphabet.create sort d.alphabet) d.pad) (by simp [normalizeFilter]) (d.wrapStart ++ text ++ [])
  exact ⟨toks, h1, by simpa using h2⟩

end

/-! ### The query of a request -/

theorem unescape_length {plus : Bool} : ∀ (n : Nat) (s : Bytes), s.length ≤ n → ∀ t, unescape plus s = .ok t → t.length ≤ s.length
  | n, [], _, t, h => by
    rw [unescape] at h
    cases h
    simp
  | 0, c :: rest, hn, _, _ => by simp at hn
  | n + 1, c :: rest, hn, t, h => by
    simp only [List.length_cons] at hn
    have hrec : ∀ (r : Bytes) (x : UInt8), r.length < (c :: rest).length →
        (match unescape plus r with | .error e => .error e | .ok s => .ok (x :: s)) = Except.ok (ε := Err) t →
        t.length ≤ (c :: rest).length := by
      intro r x hr h
      simp only [List.length_cons] at hr
      split at h
      · cases h
      · rename_i s hs
        cases h
        have := unescape_length n r (by omega) s hs
        simp only [List.length_cons]
        omega
    by_cases hc : c = 37
    · rcases rest with _ | ⟨a, _ | ⟨b, rest'⟩⟩
      · rw [unescape, if_pos hc] at h
        · cases h
        · intro a b r e; cases e
      · rw [unescape, if_pos hc] at h
        · cases h
        · intro a b r e; cases e
      · rw [unescape, if_pos hc] at h
        split at h
        · exact hrec rest' _ (by simp only [List.length_cons]; omega) h
        · cases h
    · have e : unescape plus (c :: rest) =
          match unescape plus rest with | .error e => .error e | .ok s => .ok ((if plus && c == 43 then 32 else c) :: s) := by
        conv_lhs => unfold unescape
        rw [if_neg hc]
        cases unescape plus rest <;> rfl
      rw [e] at h
      exact hrec rest _ (by simp) h

theorem cutAt_length (sep : UInt8) (s : Bytes) : (cutAt sep s).1.length ≤ s.length := by
  induction s with
  | nil => simp [cutAt]
  | cons c rest ih =>
    rw [cutAt]
    split
    · simp
    · simpa using ih

theorem parseTarget_length {target path raw : Bytes} (h : parseTarget target = .ok (path, raw)) : path.length ≤ target.length := by
  unfold parseTarget at h
  split at h
  · cases h
  split at h
  · cases h
  dsimp only at h
  split at h
  · cases h
  · rename_i p hp
    cases h
    exact (unescape_length _ _ (Nat.le_refl _) _ hp).trans (cutAt_length _ _)

theorem splitOn_length {sep : UInt8} (s : Bytes) : ∀ p ∈ splitOn sep s, p.length ≤ s.length := by
  induction s with
  | nil => simp [splitOn]
  | cons c rest ih =>
    intro p hp
    rw [splitOn] at hp
    split at hp
    · rcases List.mem_cons.1 hp with rfl | hp
      · simp
      · have := ih p hp
        simp only [List.length_cons]; omega
    · split at hp
      · rw [List.mem_singleton] at hp
        subst hp; simp
      · rename_i s' ss hss
        rw [hss] at ih
        rcases List.mem_cons.1 hp with rfl | hp
        · have := ih s' List.mem_cons_self
          simp only [List.length_cons]; omega
        · have := ih p (List.mem_cons_of_mem _ hp)
          simp only [List.length_cons]; omega

/-- The parts the routers look at. -/
theorem parts_length {path p : Bytes} {b : Bool}
    (h : p ∈ if b then (splitOn 47 path).dropLast else splitOn 47 path) : p.length ≤ path.length := by
  split at h
  · exact splitOn_length _ _ (List.mem_of_mem_dropLast h)
  · exact splitOn_length _ _ h

theorem route_length {method : Method} {path dict query : Bytes}
    (h : route method path = .suggest dict query ∨ route method path = .autocomplete dict query) : query.length ≤ path.length := by
  unfold route at h
  split at h
  · rcases h with h | h <;> cases h
  unfold matchRoutes at h
  dsimp only at h
  have hp := fun p => parts_length (path := path) (p := p) (b := decide (path.getLast? = some 47))
  split at h
  · split at h
    · split at h <;> rcases h with h | h <;> cases h
    · rcases h with h | h <;> cases h
  · split at h
    · split at h
      · rcases h with h | h <;> cases h
      · split at h <;> rcases h with h | h <;> cases h
    · split at h
      · split at h
        · rcases h with h | h <;> cases h
        · split at h <;> rcases h with h | h <;> cases h
      · rcases h with h | h <;> cases h
  · rename_i a b dd q heq
    rw [heq] at hp
    have hq := hp q (by simp)
    split at h
    · split at h
      · rcases h with h | h <;> cases h
      · split at h
        · rcases h with h | h <;> cases h
          exact hq
        · rcases h with h | h <;> cases h
    · split at h
      · split at h
        · rcases h with h | h <;> cases h
        · split at h
          · rcases h with h | h <;> cases h
            exact hq
          · rcases h with h | h <;> cases h
      · rcases h with h | h <;> cases h
  · rcases h with h | h <;> cases h

end Verif.Serve
