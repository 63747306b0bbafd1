import Verif.Model.Index
import Verif.Spec.Index
import Verif.Proofs.Codec
import Mathlib.Data.List.Nodup
import Mathlib.Data.List.Count

namespace Verif
open Spec

/-- Posting list as written, repeated terms of a document repeating its id. -/
def postingsMul (docs : List Doc) (c : Nat) (t : String) : List Nat :=
  docs.flatMap fun d => if d.terms.length = c then List.replicate (d.terms.count t) d.id else []

/-- The map holds exactly the nonempty values of `f`. -/
structure MapOk (m : TermMap) (f : String → List Nat) : Prop where
  nodup : (m.map Prod.fst).Nodup
  mem : ∀ t l, (t, l) ∈ m ↔ l = f t ∧ l ≠ []

theorem TermMap.push_keys (m : TermMap) (t : String) (id : Nat) :
    (m.push t id).map Prod.fst = if t ∈ m.map Prod.fst then m.map Prod.fst else m.map Prod.fst ++ [t] := by
  induction m with
  | nil => simp [push]
  | cons e m ih =>
    obtain ⟨t', l⟩ := e
    unfold push
    by_cases h : t' = t
    · simp [h]
    · rw [if_neg h]
      simp only [List.map_cons, ih, List.mem_cons]
      have : ¬ t = t' := fun e => h e.symm
      simp only [this, false_or]
      split <;> simp

theorem TermMap.push_mem {m : TermMap} (hn : (m.map Prod.fst).Nodup) (t : String) (id : Nat) (t' : String) (l : List Nat) :
    (t', l) ∈ m.push t id ↔ (t' ≠ t ∧ (t', l) ∈ m) ∨
      (t' = t ∧ ((∃ l0, (t, l0) ∈ m ∧ l = l0 ++ [id]) ∨ (t ∉ m.map Prod.fst ∧ l = [id]))) := by
  induction m with
  | nil => simp [push]
  | cons e m ih =>
    obtain ⟨t0, l0⟩ := e
    simp only [List.map_cons, List.nodup_cons] at hn
    have ih := ih hn.2
    unfold push
    by_cases h : t0 = t
    · subst h
      simp only [if_true, List.mem_cons, Prod.mk.injEq, List.map_cons, true_or, not_true_eq_false, false_and,
        or_false]
      constructor
      · rintro (⟨rfl, rfl⟩ | h)
        · exact .inr ⟨rfl, l0, .inl ⟨trivial, rfl⟩, rfl⟩
        · refine .inl ⟨?_, .inr h⟩
          rintro rfl
          exact hn.1 (List.mem_map.2 ⟨_, h, rfl⟩)
      · rintro (⟨hne, h | h⟩ | ⟨rfl, l1, h | h, rfl⟩)
        · exact absurd h.1 hne
        · exact .inr h
        · exact .inl ⟨rfl, by rw [h.2]⟩
        · exact absurd (List.mem_map.2 ⟨_, h, rfl⟩) hn.1
    · have h' : ¬ t = t0 := fun e => h e.symm
      simp only [h, if_false, List.mem_cons, Prod.mk.injEq, ih, List.map_cons, h', false_and, false_or]
      constructor
      · rintro (⟨rfl, rfl⟩ | ⟨h1, h2⟩ | ⟨h1, h2⟩)
        · exact .inl ⟨h, .inl ⟨rfl, rfl⟩⟩
        · exact .inl ⟨h1, .inr h2⟩
        · exact .inr ⟨h1, h2⟩
      · rintro (⟨h1, h2 | h2⟩ | ⟨h1, h2⟩)
        · exact .inl h2
        · exact .inr (.inl ⟨h1, h2⟩)
        · exact .inr (.inr ⟨h1, h2⟩)

theorem MapOk.push {m : TermMap} {f : String → List Nat} (h : MapOk m f) (t : String) (id : Nat) :
    MapOk (m.push t id) (fun t' => if t' = t then f t ++ [id] else f t') := by
  constructor
  · rw [TermMap.push_keys]
    split
    · exact h.nodup
    · rename_i hnot
      rw [List.nodup_append]
      exact ⟨h.nodup, by simp, fun a ha b hb => by
        simp only [List.mem_singleton] at hb; subst hb; rintro rfl; exact hnot ha⟩
  · intro t' l
    rw [TermMap.push_mem h.nodup]
    by_cases ht : t' = t
    · subst ht
      simp only [ne_eq, not_true_eq_false, false_and, true_and, false_or, if_true]
      constructor
      · rintro (⟨l0, h1, rfl⟩ | ⟨h1, rfl⟩)
        · rw [((h.mem _ _).1 h1).1]; exact ⟨rfl, by simp⟩
        · have : f t' = [] := by
            by_contra hc
            exact h1 (List.mem_map.2 ⟨(t', f t'), (h.mem _ _).2 ⟨rfl, hc⟩, rfl⟩)
          rw [this]; exact ⟨rfl, by simp⟩
      · rintro ⟨rfl, _⟩
        by_cases hc : f t' = []
        · refine .inr ⟨?_, by rw [hc]; rfl⟩
          intro hmem
          obtain ⟨⟨a, b⟩, h1, h2⟩ := List.mem_map.1 hmem
          simp only at h2; subst h2
          have := (h.mem _ _).1 h1
          exact this.2 (this.1.trans hc)
        · exact .inl ⟨f t', (h.mem _ _).2 ⟨rfl, hc⟩, rfl⟩
    · simp only [ne_eq, ht, not_false_eq_true, true_and, false_and, or_false, if_false]
      exact h.mem t' l

theorem MapOk.pushAll {f : String → List Nat} (id : Nat) : ∀ (terms : List String) {m : TermMap}, MapOk m f →
    MapOk (terms.foldl (fun m t => m.push t id) m) (fun t => f t ++ List.replicate (terms.count t) id) := by
  intro terms
  induction terms generalizing f with
  | nil => intro m h; simpa using h
  | cons x xs ih =>
    intro m h
    have := ih (h.push x id)
    simp only [List.foldl_cons]
    convert this using 1
    funext t
    by_cases ht : t = x
    · subst ht
      simp [List.replicate_succ]
    · have hb : ¬ x = t := fun e => ht e.symm
      simp [ht, hb]

theorem MapOk.perm {m m' : TermMap} {f : String → List Nat} (h : MapOk m f) (hp : m'.Perm m) : MapOk m' f :=
  ⟨(hp.map Prod.fst).nodup_iff.2 h.nodup, fun t l => by rw [hp.mem_iff, h.mem]⟩

theorem MapOk.nil : MapOk [] (fun _ => []) := ⟨by simp, fun t l => by simp⟩

/-- Number of cardinalities: one more than the largest number of terms of a document. -/
def maxCard (docs : List Doc) : Nat := docs.foldr (fun d m => max (d.terms.length + 1) m) 0

theorem maxCard_append (a b : List Doc) : maxCard (a ++ b) = max (maxCard a) (maxCard b) := by
  induction a with
  | nil => simp [maxCard]
  | cons d a ih =>
    simp only [maxCard, List.cons_append, List.foldr_cons] at ih ⊢
    rw [ih]; omega

/-- The map of cardinality `c`. -/
def mapAt (ix : Indices) (c : Nat) : TermMap := ((ix[c]?).getD none).getD []

/-- The writer holds exactly the documents. -/
structure WInv (docs : List Doc) (ix : Indices) : Prop where
  len : ix.length = maxCard docs
  maps : ∀ c, MapOk (mapAt ix c) (postingsMul docs c)

theorem addDocument_spec {docs : List Doc} {ix : Indices} (h : WInv docs ix) (d : Doc)
    (hd : ix ≠ [] ∨ d.terms ≠ []) :
    ∃ ix', addDocument ix d.id d.terms = .ok ix' ∧ WInv (docs ++ [d]) ix' := by
  obtain ⟨c, hc⟩ : ∃ c, d.terms.length = c := ⟨_, rfl⟩
  obtain ⟨grown, hg, hlen, hmap⟩ : ∃ grown : Indices,
      growIndices ix c = .ok grown ∧ grown.length = max (c + 1) ix.length ∧ ∀ i, mapAt grown i = mapAt ix i := by
    by_cases h1 : ix.length ≤ c
    · have h2 : ¬ c * 2 < c + 1 := by
        rcases hd with hd | hd
        · have := List.length_pos_iff.2 hd; omega
        · have := List.length_pos_iff.2 hd; omega
      refine ⟨ix ++ List.replicate (c + 1 - ix.length) none, by simp [growIndices, h1, h2], by simp; omega, fun i => ?_⟩
      unfold mapAt
      rcases Nat.lt_or_ge i ix.length with hi | hi
      · rw [List.getElem?_append_left hi]
      · rw [List.getElem?_append_right hi, List.getElem?_eq_none hi, List.getElem?_replicate]
        split <;> rfl
    · exact ⟨ix, by simp [growIndices, h1], by omega, fun _ => rfl⟩
  obtain ⟨m, hm⟩ : ∃ m, grown[c]? = some m := by
    have : c < grown.length := by omega
    exact ⟨_, List.getElem?_eq_getElem this⟩
  refine ⟨grown.set c (some (d.terms.foldl (fun m t => m.push t d.id) (m.getD []))), ?_, ?_, ?_⟩
  · unfold addDocument
    simp only [hc, hg, bind, Except.bind, hm]
  · rw [List.length_set, hlen, maxCard_append, h.len]
    simp only [maxCard, List.foldr_cons, List.foldr_nil, hc]
    omega
  · intro i
    have hpm : ∀ t, postingsMul (docs ++ [d]) i t = postingsMul docs i t ++
        (if c = i then List.replicate (d.terms.count t) d.id else []) := by
      intro t; simp [postingsMul, hc]
    by_cases hi : c = i
    · subst hi
      have hat : mapAt (grown.set c (some (d.terms.foldl (fun m t => m.push t d.id) (m.getD [])))) c
          = d.terms.foldl (fun m t => m.push t d.id) (mapAt grown c) := by
        have : c < grown.length := by omega
        unfold mapAt
        rw [List.getElem?_set_self this, hm]; rfl
      rw [hat, hmap]
      have := (h.maps c).pushAll d.id d.terms
      convert this using 1
      funext t
      rw [hpm]; simp
    · have hat : mapAt (grown.set c (some (d.terms.foldl (fun m t => m.push t d.id) (m.getD [])))) i
          = mapAt ix i := by
        rw [← hmap i]
        unfold mapAt
        rw [List.getElem?_set_ne hi]
      rw [hat]
      have := h.maps i
      convert this using 1
      funext t
      rw [hpm]; simp [hi]

theorem addDocuments_spec : ∀ (ds : List Doc) {docs : List Doc} {ix : Indices}, WInv docs ix →
    (ix ≠ [] ∨ ∀ d, ds.head? = some d → d.terms ≠ []) →
    ∃ ix', addDocuments (ds.map fun d => (d.id, d.terms)) ix = .ok ix' ∧ WInv (docs ++ ds) ix'
  | [], docs, ix, h, _ => ⟨ix, rfl, by simpa using h⟩
  | d :: ds, docs, ix, h, hd => by
    obtain ⟨ix1, e1, h1⟩ := addDocument_spec h d (hd.imp id fun h => h d rfl)
    have hne : ix1 ≠ [] := by
      rintro rfl
      have := h1.len
      rw [maxCard_append] at this
      simp only [List.length_nil, maxCard, List.foldr_cons, List.foldr_nil] at this
      omega
    obtain ⟨ix2, e2, h2⟩ := addDocuments_spec ds h1 (.inl hne)
    refine ⟨ix2, ?_, by simpa using h2⟩
    simp only [List.map_cons, addDocuments, e1, bind, Except.bind, e2]

theorem WInv.nil : WInv [] [] := ⟨rfl, fun c => by
  have : mapAt [] c = [] := by simp [mapAt]
  rw [this]; exact MapOk.nil⟩

/-- Without repeated terms the written posting list is the specified one. -/
theorem postingsMul_eq {docs : List Doc} (h : ∀ d ∈ docs, d.terms.Nodup) (c : Nat) (t : String) :
    postingsMul docs c t = postings docs c t := by
  induction docs with
  | nil => rfl
  | cons d docs ih =>
    have ih := ih (fun d hd => h d (by simp [hd]))
    simp only [postingsMul, postings, List.flatMap_cons] at ih ⊢
    rw [ih]
    have hn := h d (by simp)
    by_cases hc : d.terms.length = c
    · by_cases ht : t ∈ d.terms
      · rw [List.filter_cons_of_pos (by simp [hc, ht])]
        simp [hc, List.count_eq_one_of_mem hn ht]
      · rw [List.filter_cons_of_neg (by simp [ht])]
        simp [hc, List.count_eq_zero_of_not_mem ht]
    · rw [List.filter_cons_of_neg (by simp [hc])]
      simp [hc]

end Verif
