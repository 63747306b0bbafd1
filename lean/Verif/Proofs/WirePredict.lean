import Verif.Model.WirePredict
import Verif.Proofs.WireJson
import Verif.Spec.WirePredict
/-! Paths of two segments: the requests of the spell checker server. -/
namespace Verif.Wire
open Verif Verif.Spec

def predictWord : Bytes := utf8 "predict".toList
theorem predictWord_eq : "predict".toUTF8.toList = predictWord := by decide +kernel
theorem predictWord_segment : PathSegment predictWord := by unfold PathSegment predictWord; decide +kernel
theorem predictWord_plain : 37 ∉ predictWord ∧ 63 ∉ predictWord ∧ ∀ c ∈ predictWord, ¬ c.toNat < 32 ∧ c.toNat ≠ 127 := by
  unfold predictWord; decide +kernel

theorem split_path2 {a q : Bytes} (ha : 47 ∉ a) (hq : 47 ∉ q) :
    splitOn 47 (47 :: (a ++ 47 :: (q ++ [47]))) = [[], a, q, []] := by
  rw [splitOn_lead, splitOn_append ha, splitOn_append hq]
  rfl

theorem split_path2' {a q : Bytes} (ha : 47 ∉ a) (hq : 47 ∉ q) :
    splitOn 47 (47 :: (a ++ 47 :: q)) = [[], a, q] := by
  rw [splitOn_lead, splitOn_append ha, splitOn_none hq]

theorem last_path2 (a q : Bytes) : (47 :: (a ++ 47 :: (q ++ [47]))).getLast? = some (47 : UInt8) := by
  have : (47 :: (a ++ 47 :: (q ++ [47]))) = (47 :: (a ++ 47 :: q)) ++ [47] := by simp
  rw [this, getLast_slash]

theorem last_path2' {a q : Bytes} (hq : PathSegment q) : (47 :: (a ++ 47 :: q)).getLast? ≠ some (47 : UInt8) := by
  have h1 : (47 :: (a ++ 47 :: q)) = (47 :: (a ++ [47])) ++ q := by simp
  rw [h1, List.getLast?_append_of_ne_nil _ hq.1, List.getLast?_eq_some_getLast hq.1]
  intro h
  simp only [Option.some.injEq] at h
  exact hq.2.1 (h ▸ List.getLast_mem hq.1)

theorem cleanParts_tail (l stack : List Bytes) : cleanParts stack (l ++ [[]]) = cleanParts stack l := by
  induction l generalizing stack with
  | nil => rfl
  | cons x l ih => rw [List.cons_append, cleanParts, cleanParts, ih, ih, ih]

theorem clean_path2 {a q : Bytes} (ha : PathSegment a) (hq : PathSegment q) :
    cleanPath (47 :: (a ++ 47 :: (q ++ [47]))) = 47 :: (a ++ 47 :: (q ++ [47])) := by
  have e : cleanParts [] [[], a, q, []] = [q, a] := by
    have h1 : cleanParts [] [[], a, q, []] = cleanParts [] ([a, q] ++ [[]]) := by rw [cleanParts, if_pos (.inl rfl)]; rfl
    rw [h1, cleanParts_tail, cleanParts_segments (by simp [ha, hq])]
    rfl
  unfold cleanPath
  rw [split_path2 ha.2.1 hq.2.1, e, last_path2]
  simp [List.intersperse]

theorem clean_path2' {a q : Bytes} (ha : PathSegment a) (hq : PathSegment q) :
    cleanPath (47 :: (a ++ 47 :: q)) = 47 :: (a ++ 47 :: q) := by
  have e : cleanParts [] [[], a, q] = [q, a] := by
    rw [cleanParts, if_pos (.inl rfl), cleanParts_segments (by simp [ha, hq])]
    rfl
  unfold cleanPath
  rw [split_path2' ha.2.1 hq.2.1, e]
  simp only [last_path2' hq, false_and, if_false]
  simp [List.intersperse]

theorem spell_match (m : Method) {q : Bytes} (hq : PathSegment q) :
    routeSpell m (47 :: (predictWord ++ 47 :: (q ++ [47]))) = if m ≠ .get then .notAllowed else .predict q := by
  unfold routeSpell
  rw [if_neg (by rw [clean_path2 predictWord_segment hq]; simp)]
  unfold matchSpell
  simp only [last_path2, decide_true, if_true, split_path2 predictWord_segment.2.1 hq.2.1, List.dropLast, true_and]
  rw [predictWord_eq]
  simp [hq.1]

theorem spell_match' (m : Method) {q : Bytes} (hq : PathSegment q) :
    routeSpell m (47 :: (predictWord ++ 47 :: q)) = if m ≠ .get then .notAllowed else .redirect := by
  unfold routeSpell
  rw [if_neg (by rw [clean_path2' predictWord_segment hq]; simp)]
  unfold matchSpell
  simp only [last_path2' hq, decide_false, Bool.false_eq_true, if_false, split_path2' predictWord_segment.2.1 hq.2.1, true_and]
  rw [predictWord_eq]
  simp [hq.1]

/-- Only segments are passed to the handler. -/
theorem spell_only {m : Method} {p q : Bytes} (h : routeSpell m p = .predict q) : PathSegment q := by
  unfold routeSpell at h
  by_cases hc : cleanPath p ≠ p
  · simp [hc] at h
  simp only [hc, if_false] at h
  have hparts := clean_parts (not_not.1 hc)
  unfold matchSpell at h
  dsimp only at h
  generalize hl : (if decide (p.getLast? = some 47) then (splitOn 47 p).dropLast else splitOn 47 p) = l at h
  have hl' : ∀ x ∈ l, x = [] ∨ PathSegment x := fun x hx => hparts x (dropLast_mem hl hx)
  split at h
  · split_ifs at h <;> simp at h
  · rename_i a b q'
    have hq := hl' q' (by simp)
    split_ifs at h <;> simp at h
    subst h
    tauto
  · simp at h

/-- The target of a request for corrections. -/
theorem parse_target2 {api q q' raw : Bytes} (ha : 37 ∉ api ∧ 63 ∉ api ∧ ∀ c ∈ api, ¬ c.toNat < 32 ∧ c.toNat ≠ 127)
    (hq : PctEncoded false q q') (hraw : ∀ c ∈ raw, ¬ c.toNat < 32 ∧ c.toNat ≠ 127) :
    parseTarget (47 :: (api ++ 47 :: (q' ++ 47 :: 63 :: raw))) = .ok (47 :: (api ++ 47 :: (q ++ [47])), raw) := by
  have hq' := enc_no hq
  unfold parseTarget
  rw [if_neg, if_neg (by simp)]
  · have hcut := cutAt_append (sep := 63) (p := 47 :: (api ++ 47 :: (q' ++ [47]))) (by
      simp only [List.mem_cons, List.mem_append, List.not_mem_nil, or_false, not_or]
      exact ⟨by decide, ha.2.1, by decide, fun h => (hq' _ h).2.1 rfl, by decide⟩) raw
    have e : (47 :: (api ++ 47 :: (q' ++ 47 :: 63 :: raw))) = (47 :: (api ++ 47 :: (q' ++ [47]))) ++ 63 :: raw := by simp
    rw [e, hcut]
    simp only
    have e2 : (47 :: (api ++ 47 :: (q' ++ [47]))) = (47 :: api ++ [47]) ++ (q' ++ [47]) := by simp
    have e3 : unescape false [47] = .ok [47] := by simp [unescape]
    rw [e2, unescape_plain (by
      simp only [List.mem_append, List.mem_cons, List.not_mem_nil, or_false, not_or]
      exact ⟨⟨by decide, ha.1⟩, by decide⟩), unescape_append hq, e3]
    simp
  · simp only [Bool.not_eq_true, List.any_eq_false]
    intro c hc
    have : ¬ c.toNat < 32 ∧ c.toNat ≠ 127 := by
      simp only [List.mem_cons, List.mem_append] at hc
      rcases hc with rfl | hc | rfl | hc | rfl | rfl | hc
      · decide
      · exact ha.2.2 c hc
      · decide
      · exact (hq' c hc).2.2.2.2.2
      · decide
      · decide
      · exact hraw c hc
    simp [this]

theorem words_read (ws : List Bytes) : JsonBody (jsonWords ws) (.arr (ws.map fun w => .str (shown w))) := by
  apply array_read (k := 1) (le_refl _)
  rw [List.forall₂_map_left_iff, List.forall₂_map_right_iff]
  exact List.forall₂_same.2 fun n _ => reads_string n

end Verif.Wire
