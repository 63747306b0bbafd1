import Verif.Model.Wire
import Verif.Spec.Wire
import Verif.Proofs.Text
namespace Verif.Wire
open Verif Verif.Spec

/-! ### URLs -/

theorem unhex_of_hex {c : UInt8} {v : Nat} (h : HexDigit c v) : unhex c = some v := by
  unfold unhex
  rcases h with ⟨h1, h2⟩ | ⟨h1, h2, h3 | h3⟩
  · rw [if_pos (by omega)]; simp; omega
  · rw [if_neg (by omega), if_pos (by omega)]; simp; omega
  · rw [if_neg (by omega), if_neg (by omega), if_pos (by omega)]; simp; omega

theorem ofNat_of_toNat {c : UInt8} {n : Nat} (h : c.toNat = n) : UInt8.ofNat n = c := by rw [← h]; simp

theorem unreserved_ne {c : UInt8} (h : Unreserved c) {n : Nat}
    (hn : n = 37 ∨ n = 43 ∨ n = 47 ∨ n = 63 ∨ n = 38 ∨ n = 59 ∨ n = 61) : c.toNat ≠ n := by
  unfold Unreserved at h
  omega

theorem hex_range {c : UInt8} {v : Nat} (h : HexDigit c v) : (48 ≤ c.toNat ∧ c.toNat ≤ 57) ∨ (65 ≤ c.toNat ∧ c.toNat ≤ 90) ∨ (97 ≤ c.toNat ∧ c.toNat ≤ 122) := by
  unfold HexDigit at h
  omega

theorem ne_of_toNat {c : UInt8} {n : Nat} (h : c.toNat ≠ n) (hn : n < 256) : c ≠ UInt8.ofNat n := by
  rintro rfl
  rw [UInt8.toNat_ofNat_of_lt' (by simpa [UInt8.size] using hn)] at h
  exact h rfl

/-- Bytes that do not occur in encodings. -/
theorem enc_no {form : Bool} {s t : Bytes} (h : PctEncoded form s t) :
    ∀ c ∈ t, c.toNat ≠ 47 ∧ c.toNat ≠ 63 ∧ c.toNat ≠ 38 ∧ c.toNat ≠ 59 ∧ c.toNat ≠ 61 ∧ ¬ c.toNat < 32 ∧ c.toNat ≠ 127 := by
  induction h with
  | nil => simp
  | lit h1 _ ih =>
    intro c hc
    rcases List.mem_cons.1 hc with rfl | hc
    · unfold Unreserved at h1; omega
    · exact ih c hc
  | pct h1 h2 _ _ ih =>
    intro c hc
    have := hex_range h1
    have := hex_range h2
    simp only [List.mem_cons] at hc
    rcases hc with rfl | rfl | rfl | hc
    · decide
    · omega
    · omega
    · exact ih c hc
  | plus _ _ ih =>
    intro c hc
    rcases List.mem_cons.1 hc with rfl | hc
    · decide
    · exact ih c hc

theorem unescape_other {plus : Bool} {c : UInt8} (h : c ≠ 37) (rest : Bytes) :
    unescape plus (c :: rest) = match unescape plus rest with
      | .error e => .error e
      | .ok s => .ok ((if plus && c == 43 then 32 else c) :: s) := by
  rcases rest with _ | ⟨a, _ | ⟨b, rest⟩⟩ 
  · simp [unescape, h]
  · simp only [unescape, h, if_false]; rfl
  · rw [unescape, if_neg h]; rfl

theorem unescape_append {form : Bool} {s t : Bytes} (h : PctEncoded form s t) (rest : Bytes) :
    unescape form (t ++ rest) = match unescape form rest with | .error e => .error e | .ok x => .ok (s ++ x) := by
  induction h with
  | nil => rw [List.nil_append]; cases unescape form rest <;> rfl
  | @lit c s t h1 _ ih =>
    have e : c ≠ 37 := ne_of_toNat (n := 37) (unreserved_ne h1 (by omega)) (by decide)
    have e' : (c == 43) = false := by
      have := ne_of_toNat (n := 43) (unreserved_ne h1 (by omega)) (by decide)
      simpa using this
    rw [List.cons_append, unescape_other e, ih]
    cases unescape form rest with
    | error e => rfl
    | ok x => simp [e']
  | pct h1 h2 h3 _ ih =>
    simp only [List.cons_append]
    rw [unescape, if_pos rfl]
    simp only [unhex_of_hex h1, unhex_of_hex h2, ih]
    cases unescape form rest with
    | error e => rfl
    | ok x => simp [ofNat_of_toNat h3]
  | plus hp _ ih =>
    subst hp
    rw [List.cons_append, unescape_other (by decide), ih]
    cases unescape true rest with
    | error e => rfl
    | ok x => rfl

theorem unescape_enc {form : Bool} {s t : Bytes} (h : PctEncoded form s t) : unescape form t = .ok s := by
  have := unescape_append h []
  simpa [unescape] using this

/-- Plain bytes. -/
theorem unescape_plain {p : Bytes} (hp : 37 ∉ p) (rest : Bytes) :
    unescape false (p ++ rest) = match unescape false rest with | .error e => .error e | .ok x => .ok (p ++ x) := by
  induction p with
  | nil => rw [List.nil_append]; cases unescape false rest <;> rfl
  | cons c p ih =>
    simp only [List.mem_cons, not_or] at hp
    rw [List.cons_append, unescape_other (Ne.symm hp.1), ih hp.2]
    cases unescape false rest with
    | error e => rfl
    | ok x => simp

theorem cutAt_append {sep : UInt8} {p : Bytes} (hp : sep ∉ p) (rest : Bytes) : cutAt sep (p ++ sep :: rest) = (p, rest) := by
  induction p with
  | nil => simp [cutAt]
  | cons c p ih =>
    simp only [List.mem_cons, not_or] at hp
    rw [List.cons_append, cutAt, if_neg (Ne.symm hp.1), ih hp.2]

theorem cutAt_none {sep : UInt8} {p : Bytes} (hp : sep ∉ p) : cutAt sep p = (p, []) := by
  induction p with
  | nil => rfl
  | cons c p ih =>
    simp only [List.mem_cons, not_or] at hp
    rw [cutAt, if_neg (Ne.symm hp.1), ih hp.2]

theorem splitOn_ne (sep : UInt8) (s : Bytes) : splitOn sep s ≠ [] := by
  induction s with
  | nil => simp [splitOn]
  | cons c s ih =>
    rw [splitOn]
    split
    · simp
    · split <;> simp

theorem splitOn_append {sep : UInt8} {p : Bytes} (hp : sep ∉ p) (rest : Bytes) : splitOn sep (p ++ sep :: rest) = p :: splitOn sep rest := by
  induction p with
  | nil => simp [splitOn]
  | cons c p ih =>
    simp only [List.mem_cons, not_or] at hp
    rw [List.cons_append, splitOn, if_neg (Ne.symm hp.1), ih hp.2]

theorem splitOn_none {sep : UInt8} {p : Bytes} (hp : sep ∉ p) : splitOn sep p = [p] := by
  induction p with
  | nil => rfl
  | cons c p ih =>
    simp only [List.mem_cons, not_or] at hp
    rw [splitOn, if_neg (Ne.symm hp.1), ih hp.2]

theorem splitOn_no {sep : UInt8} {s : Bytes} : ∀ p ∈ splitOn sep s, sep ∉ p := by
  induction s with
  | nil => simp [splitOn]
  | cons c s ih =>
    rw [splitOn]
    by_cases h : c = sep
    · rw [if_pos h]
      simp only [List.mem_cons, forall_eq_or_imp]
      exact ⟨by simp, ih⟩
    · rw [if_neg h]
      cases hs : splitOn sep s with
      | nil => simp [Ne.symm h]
      | cons a l =>
        rw [hs] at ih
        simp only [List.mem_cons, forall_eq_or_imp] at ih ⊢
        exact ⟨by simp [Ne.symm h, ih.1], ih.2⟩

theorem cleanParts_segments {l : List Bytes} (h : ∀ s ∈ l, PathSegment s) (stack : List Bytes) :
    cleanParts stack l = l.reverse ++ stack := by
  induction l generalizing stack with
  | nil => rfl
  | cons s l ih =>
    have hs := h s (by simp)
    rw [cleanParts, if_neg (by rintro (e | e); exacts [hs.1 e, hs.2.2.1 e]), if_neg hs.2.2.2, ih fun x hx => h x (by simp [hx])]
    simp

/-- The stack only holds segments. -/
theorem cleanParts_stack {l stack : List Bytes} (hl : ∀ s ∈ l, 47 ∉ s) (h : ∀ s ∈ stack, PathSegment s) : ∀ s ∈ cleanParts stack l, PathSegment s := by
  induction l generalizing stack with
  | nil => exact h
  | cons s l ih =>
    rw [cleanParts]
    split
    · exact ih (fun x hx => hl x (by simp [hx])) h
    · rename_i h1
      split
      · exact ih (fun x hx => hl x (by simp [hx])) fun x hx => h x (List.mem_of_mem_tail hx)
      · rename_i h2
        refine ih (fun x hx => hl x (by simp [hx])) ?_
        simp only [List.mem_cons, forall_eq_or_imp]
        simp only [not_or] at h1
        exact ⟨⟨h1.1, hl s (by simp), h1.2, h2⟩, h⟩

/-- The path of three segments. -/
theorem split_path {a d q : Bytes} (ha : 47 ∉ a) (hd : 47 ∉ d) (hq : 47 ∉ q) :
    splitOn 47 (47 :: (a ++ 47 :: (d ++ 47 :: (q ++ [47])))) = [[], a, d, q, []] := by
  have h := splitOn_append (sep := 47) (p := []) (by simp) (a ++ 47 :: (d ++ 47 :: (q ++ [47])))
  rw [List.nil_append] at h
  rw [h, splitOn_append ha, splitOn_append hd, splitOn_append hq]
  rfl

theorem split_path' {a d q : Bytes} (ha : 47 ∉ a) (hd : 47 ∉ d) (hq : 47 ∉ q) :
    splitOn 47 (47 :: (a ++ 47 :: (d ++ 47 :: q))) = [[], a, d, q] := by
  have h := splitOn_append (sep := 47) (p := []) (by simp) (a ++ 47 :: (d ++ 47 :: q))
  rw [List.nil_append] at h
  rw [h, splitOn_append ha, splitOn_append hd, splitOn_none hq]

theorem getLast_slash (l : Bytes) : (l ++ [47]).getLast? = some (47 : UInt8) := by simp

theorem clean_path {a d q : Bytes} (ha : PathSegment a) (hd : PathSegment d) (hq : PathSegment q) :
    cleanPath (47 :: (a ++ 47 :: (d ++ 47 :: (q ++ [47])))) = 47 :: (a ++ 47 :: (d ++ 47 :: (q ++ [47]))) := by
  have e : cleanParts [] [[], a, d, q, []] = [q, d, a] := by
    have h1 : cleanParts [] [[], a, d, q, []] = cleanParts [] ([a, d, q] ++ [[]]) := by rw [cleanParts, if_pos (.inl rfl)]; rfl
    have h2 : ∀ l stack, cleanParts stack (l ++ [[]]) = cleanParts stack l := by
      intro l
      induction l with
      | nil => intro stack; rfl
      | cons x l ih => intro stack; rw [List.cons_append, cleanParts, cleanParts, ih, ih, ih]
    rw [h1, h2, cleanParts_segments (by simp [ha, hd, hq])]
    rfl
  have hlast : (47 :: (a ++ 47 :: (d ++ 47 :: (q ++ [47])))).getLast? = some (47 : UInt8) := by
    have : (47 :: (a ++ 47 :: (d ++ 47 :: (q ++ [47])))) = (47 :: (a ++ 47 :: (d ++ 47 :: q))) ++ [47] := by simp
    rw [this, getLast_slash]
  unfold cleanPath
  rw [split_path ha.2.1 hd.2.1 hq.2.1, e, hlast]
  simp [List.intersperse, ha.1]

theorem clean_path' {a d q : Bytes} (ha : PathSegment a) (hd : PathSegment d) (hq : PathSegment q) :
    cleanPath (47 :: (a ++ 47 :: (d ++ 47 :: q))) = 47 :: (a ++ 47 :: (d ++ 47 :: q)) := by
  have e : cleanParts [] [[], a, d, q] = [q, d, a] := by
    rw [cleanParts, if_pos (.inl rfl), cleanParts_segments (by simp [ha, hd, hq])]
    rfl
  have hlast : (47 :: (a ++ 47 :: (d ++ 47 :: q))).getLast? ≠ some (47 : UInt8) := by
    have h1 : (47 :: (a ++ 47 :: (d ++ 47 :: q))) = (47 :: (a ++ 47 :: (d ++ [47]))) ++ q := by simp
    rw [h1, List.getLast?_append_of_ne_nil _ hq.1, List.getLast?_eq_some_getLast hq.1]
    intro h
    simp only [Option.some.injEq] at h
    exact hq.2.1 (h ▸ List.getLast_mem hq.1)
  unfold cleanPath
  rw [split_path' ha.2.1 hd.2.1 hq.2.1, e]
  simp only [hlast, false_and, if_false]
  simp [List.intersperse]

theorem splitOn_join {segs : List Bytes} (h : ∀ s ∈ segs, 47 ∉ s) (hne : segs ≠ []) :
    splitOn 47 (segs.intersperse [47]).flatten = segs := by
  induction segs with
  | nil => exact absurd rfl hne
  | cons s l ih =>
    cases l with
    | nil => simpa using splitOn_none (h s (by simp))
    | cons s' l =>
      have e : ((s :: s' :: l).intersperse [47]).flatten = s ++ 47 :: ((s' :: l).intersperse [47]).flatten := by
        simp [List.intersperse]
      rw [e, splitOn_append (h s (by simp)), ih (fun x hx => h x (by simp [hx])) (by simp)]

theorem splitOn_join_slash {segs : List Bytes} (h : ∀ s ∈ segs, 47 ∉ s) (hne : segs ≠ []) :
    splitOn 47 ((segs.intersperse [47]).flatten ++ [47]) = segs ++ [[]] := by
  induction segs with
  | nil => exact absurd rfl hne
  | cons s l ih =>
    cases l with
    | nil =>
      have := splitOn_append (h s (by simp)) []
      simpa [splitOn] using this
    | cons s' l =>
      have e : ((s :: s' :: l).intersperse [47]).flatten ++ [47] = s ++ 47 :: (((s' :: l).intersperse [47]).flatten ++ [47]) := by
        simp [List.intersperse]
      rw [e, splitOn_append (h s (by simp)), ih (fun x hx => h x (by simp [hx])) (by simp)]
      rfl

theorem splitOn_lead (s : Bytes) : splitOn 47 (47 :: s) = [] :: splitOn 47 s := by rw [splitOn, if_pos rfl]

/-- The parts of a clean path are empty or segments. -/
theorem clean_parts {p : Bytes} (h : cleanPath p = p) : ∀ s ∈ splitOn 47 p, s = [] ∨ PathSegment s := by
  have hseg := cleanParts_stack (l := splitOn 47 p) (stack := []) splitOn_no (by simp)
  have hseg' : ∀ s ∈ (cleanParts [] (splitOn 47 p)).reverse, PathSegment s := fun s hs => hseg s (by simpa using hs)
  rw [← h]
  unfold cleanPath
  generalize (cleanParts [] (splitOn 47 p)).reverse = segs at hseg' ⊢
  dsimp only
  intro s hs
  by_cases hne : segs = []
  · subst hne
    simp only [List.intersperse, List.flatten_nil, ne_eq, not_true, and_false, if_false] at hs
    rw [splitOn_lead] at hs
    simp [splitOn] at hs
    exact .inl hs
  split at hs
  · rw [List.cons_append, splitOn_lead, splitOn_join_slash (fun x hx => (hseg' x hx).2.1) hne] at hs
    simp only [List.mem_cons, List.mem_append, List.not_mem_nil, or_false] at hs
    rcases hs with rfl | hs | rfl
    · exact .inl rfl
    · exact .inr (hseg' s hs)
    · exact .inl rfl
  · rw [splitOn_lead, splitOn_join (fun x hx => (hseg' x hx).2.1) hne] at hs
    simp only [List.mem_cons] at hs
    rcases hs with rfl | hs
    · exact .inl rfl
    · exact .inr (hseg' s hs)

theorem dropLast_mem {α : Type} {l l' : List α} {b : Bool} {x : α} (h : (if b then l.dropLast else l) = l') (hx : x ∈ l') : x ∈ l := by
  rw [← h] at hx
  split at hx
  · exact List.mem_of_mem_dropLast hx
  · exact hx

def suggestWord : Bytes := utf8 "suggest".toList
def completeWord : Bytes := utf8 "autocomplete".toList
theorem suggestWord_eq : "suggest".toUTF8.toList = suggestWord := by decide +kernel
theorem completeWord_eq : "autocomplete".toUTF8.toList = completeWord := by decide +kernel

theorem suggestWord_segment : PathSegment suggestWord := by unfold PathSegment suggestWord; decide +kernel
theorem completeWord_segment : PathSegment completeWord := by unfold PathSegment completeWord; decide +kernel
theorem words_ne : suggestWord ≠ completeWord := by unfold suggestWord completeWord; decide +kernel

theorem last_path (a d q : Bytes) : (47 :: (a ++ 47 :: (d ++ 47 :: (q ++ [47])))).getLast? = some (47 : UInt8) := by
  have : (47 :: (a ++ 47 :: (d ++ 47 :: (q ++ [47])))) = (47 :: (a ++ 47 :: (d ++ 47 :: q))) ++ [47] := by simp
  rw [this, getLast_slash]

theorem last_path' {a d q : Bytes} (hq : PathSegment q) : (47 :: (a ++ 47 :: (d ++ 47 :: q))).getLast? ≠ some (47 : UInt8) := by
  have h1 : (47 :: (a ++ 47 :: (d ++ 47 :: q))) = (47 :: (a ++ 47 :: (d ++ [47]))) ++ q := by simp
  rw [h1, List.getLast?_append_of_ne_nil _ hq.1, List.getLast?_eq_some_getLast hq.1]
  intro h
  simp only [Option.some.injEq] at h
  exact hq.2.1 (h ▸ List.getLast_mem hq.1)

theorem match4 (m : Method) {a d q : Bytes} (ha : PathSegment a) (hd : PathSegment d) (hq : PathSegment q) :
    route m (47 :: (a ++ 47 :: (d ++ 47 :: (q ++ [47])))) =
      if a = completeWord then (if m ≠ .get then .notAllowed else .autocomplete d q)
      else if a = suggestWord then (if m ≠ .get then .notAllowed else .suggest d q) else .notFound := by
  unfold route
  rw [if_neg (by rw [clean_path ha hd hq]; simp)]
  unfold matchRoutes
  simp only [last_path, decide_true, if_true, split_path ha.2.1 hd.2.1 hq.2.1, List.dropLast, true_and]
  rw [suggestWord_eq, completeWord_eq]
  simp only [ne_eq, hd.1, hq.1, not_false_eq_true, and_self, and_true]

theorem match4' (m : Method) {a d q : Bytes} (ha : PathSegment a) (hd : PathSegment d) (hq : PathSegment q) :
    route m (47 :: (a ++ 47 :: (d ++ 47 :: q))) =
      if a = completeWord ∨ a = suggestWord then (if m ≠ .get then .notAllowed else .redirect) else .notFound := by
  unfold route
  rw [if_neg (by rw [clean_path' ha hd hq]; simp)]
  unfold matchRoutes
  simp only [last_path' hq, decide_false, Bool.false_eq_true, if_false, split_path' ha.2.1 hd.2.1 hq.2.1, true_and]
  rw [suggestWord_eq, completeWord_eq]
  simp only [ne_eq, hd.1, hq.1, not_false_eq_true, and_self, and_true]
  by_cases h1 : a = completeWord
  · simp [h1]
  · by_cases h2 : a = suggestWord <;> simp [h1, h2]

/-- Only segments are passed to the handlers. -/
theorem route_only {m : Method} {p d q : Bytes} (h : route m p = .suggest d q ∨ route m p = .autocomplete d q) :
    PathSegment d ∧ PathSegment q := by
  unfold route at h
  by_cases hc : cleanPath p ≠ p
  · simp [hc] at h
  simp only [hc, if_false] at h
  have hparts := clean_parts (not_not.1 hc)
  unfold matchRoutes at h
  dsimp only at h
  generalize hl : (if decide (p.getLast? = some 47) then (splitOn 47 p).dropLast else splitOn 47 p) = l at h
  have hl' : ∀ x ∈ l, x = [] ∨ PathSegment x := fun x hx => hparts x (dropLast_mem hl hx)
  split at h
  · split_ifs at h <;> simp at h
  · split_ifs at h <;> simp at h
  · rename_i a b d' q'
    have hd := hl' d' (by simp)
    have hq := hl' q' (by simp)
    split_ifs at h <;> simp at h
    · obtain ⟨rfl, rfl⟩ := h
      exact ⟨by tauto, by tauto⟩
    · obtain ⟨rfl, rfl⟩ := h
      exact ⟨by tauto, by tauto⟩
  · simp at h

/-- The target of a search. -/
theorem parse_target {api d q d' q' raw : Bytes} (ha : 37 ∉ api ∧ 63 ∉ api ∧ ∀ c ∈ api, ¬ c.toNat < 32 ∧ c.toNat ≠ 127)
    (hd : PctEncoded false d d') (hq : PctEncoded false q q') (hraw : ∀ c ∈ raw, ¬ c.toNat < 32 ∧ c.toNat ≠ 127) :
    parseTarget (47 :: (api ++ 47 :: (d' ++ 47 :: (q' ++ 47 :: 63 :: raw)))) =
      .ok (47 :: (api ++ 47 :: (d ++ 47 :: (q ++ [47]))), raw) := by
  have hd' := enc_no hd
  have hq' := enc_no hq
  unfold parseTarget
  rw [if_neg, if_neg (by simp)]
  · have hcut := cutAt_append (sep := 63) (p := 47 :: (api ++ 47 :: (d' ++ 47 :: (q' ++ [47])))) (by
      simp only [List.mem_cons, List.mem_append, List.not_mem_nil, or_false, not_or]
      exact ⟨by decide, ha.2.1, by decide, fun h => (hd' _ h).2.1 rfl, by decide, fun h => (hq' _ h).2.1 rfl, by decide⟩) raw
    have e : (47 :: (api ++ 47 :: (d' ++ 47 :: (q' ++ 47 :: 63 :: raw)))) =
        (47 :: (api ++ 47 :: (d' ++ 47 :: (q' ++ [47])))) ++ 63 :: raw := by simp
    rw [e, hcut]
    simp only
    have e2 : (47 :: (api ++ 47 :: (d' ++ 47 :: (q' ++ [47])))) = (47 :: api ++ [47]) ++ (d' ++ ([47] ++ (q' ++ [47]))) := by simp
    have e3 : unescape false [47] = .ok [47] := by simp [unescape]
    rw [e2, unescape_plain (by
      simp only [List.mem_append, List.mem_cons, List.not_mem_nil, or_false, not_or]
      exact ⟨⟨by decide, ha.1⟩, by decide⟩), unescape_append hd, unescape_plain (by decide), unescape_append hq, e3]
    simp
  · simp only [Bool.not_eq_true, List.any_eq_false]
    intro c hc
    have : ¬ c.toNat < 32 ∧ c.toNat ≠ 127 := by
      simp only [List.mem_cons, List.mem_append] at hc
      rcases hc with rfl | hc | rfl | hc | rfl | hc | rfl | rfl | hc
      · decide
      · exact ha.2.2 c hc
      · decide
      · exact (hd' c hc).2.2.2.2.2
      · decide
      · exact (hq' c hc).2.2.2.2.2
      · decide
      · decide
      · exact hraw c hc
    simp [this]

/-! ### forms -/

theorem splitOn_flat {p : Bytes} (h1 : 59 ∉ p) : splitOn 59 p = [p] := splitOn_none h1

theorem pair_no {k v k' v' : Bytes} (hk : PctEncoded true k k') (hv : PctEncoded true v v') :
    38 ∉ k' ++ 61 :: v' ∧ 59 ∉ k' ++ 61 :: v' ∧ 61 ∉ k' := by
  have h1 := enc_no hk
  have h2 := enc_no hv
  refine ⟨fun h => ?_, fun h => ?_, fun h => ?_⟩
  · simp only [List.mem_append, List.mem_cons] at h
    rcases h with h | h | h
    · exact (h1 _ h).2.2.1 rfl
    · cases h
    · exact (h2 _ h).2.2.1 rfl
  · simp only [List.mem_append, List.mem_cons] at h
    rcases h with h | h | h
    · exact (h1 _ h).2.2.2.1 rfl
    · cases h
    · exact (h2 _ h).2.2.2.1 rfl
  · exact (h1 _ h).2.2.2.2.1 rfl

theorem parse_pair {k v k' v' : Bytes} (hk : PctEncoded true k k') (hv : PctEncoded true v v') :
    ([k' ++ 61 :: v'].filterMap fun part =>
    if part = [] then none
    else
      match unescape true (cutAt 61 part).1, unescape true (cutAt 61 part).2 with
      | .ok k, .ok v => some (k, v)
      | _, _ => none) = [(k, v)] := by
  have hc := cutAt_append (pair_no hk hv).2.2 v'
  rw [List.filterMap_cons, if_neg (by simp), hc]
  simp only [unescape_enc hk, unescape_enc hv, List.filterMap_nil]

theorem parse_form {kvs : List (Bytes × Bytes)} {raw : Bytes} (h : FormEncoded kvs raw) : parseQuery raw = kvs := by
  unfold parseQuery
  induction h with
  | nil => simp [splitOn]
  | last hk hv =>
    obtain ⟨h1, h2, _⟩ := pair_no hk hv
    rw [splitOn_none h1]
    simp only [List.flatMap_cons, List.flatMap_nil, List.append_nil]
    rw [splitOn_none h2]
    exact parse_pair hk hv
  | @cons k v k' v' kv kvs raw hk hv _ ih =>
    obtain ⟨h1, h2, _⟩ := pair_no hk hv
    rw [splitOn_append h1]
    simp only [List.flatMap_cons, List.filterMap_append]
    rw [splitOn_none h2, ih]
    exact congrArg (· ++ kv :: kvs) (parse_pair hk hv)

theorem formValue_enc {kvs : List (Bytes × Bytes)} {raw : Bytes} (h : FormEncoded kvs raw) (field : String) :
    formValue raw field = fieldValue kvs field.toUTF8.toList := by
  unfold formValue fieldValue
  rw [parse_form h]
  have : (fun kv : Bytes × Bytes => kv.1 == field.toUTF8.toList) = fun kv => decide (kv.1 = field.toUTF8.toList) := by
    funext kv
    rw [Bool.eq_iff_iff, beq_iff_eq, decide_eq_true_iff]
  rw [this]
  cases List.find? _ kvs <;> rfl

/-- Encoded forms have no control characters. -/
theorem form_plain {kvs : List (Bytes × Bytes)} {raw : Bytes} (h : FormEncoded kvs raw) : ∀ c ∈ raw, ¬ c.toNat < 32 ∧ c.toNat ≠ 127 := by
  induction h with
  | nil => simp
  | last hk hv =>
    intro c hc
    simp only [List.mem_append, List.mem_cons] at hc
    rcases hc with hc | rfl | hc
    · exact (enc_no hk c hc).2.2.2.2.2
    · decide
    · exact (enc_no hv c hc).2.2.2.2.2
  | cons hk hv _ ih =>
    intro c hc
    simp only [List.mem_append, List.mem_cons, List.append_assoc, List.cons_append] at hc
    rcases hc with hc | rfl | hc | rfl | hc
    · exact (enc_no hk c hc).2.2.2.2.2
    · decide
    · exact (enc_no hv c hc).2.2.2.2.2
    · decide
    · exact ih c hc

end Verif.Wire
