import Verif.Proofs.NGramVector
import Verif.Spec.LM
/- Proofs about the vectors built from the n-gram files of all orders. -/
namespace Verif
open Spec (totalCount)

/-- `p` has a line in the file. -/
def inFile (F : List (List Nat × Nat)) (p : List Nat) : Prop := ∃ e ∈ F, e.1 = p

theorem totalCount_zero {F : List (List Nat × Nat)} {p : List Nat} (h : ¬ inFile F p) : totalCount F p = 0 := by
  unfold totalCount
  rw [List.filter_eq_nil_iff.2]
  · rfl
  · intro e he heq
    exact h ⟨e, he, by simpa using heq⟩

/-- The vectors `vs` of the files `fs`, with the context offset of every n-gram. -/
structure Levels (fs : List (List (List Nat × Nat))) (vs : List PackedArray) (ctx : List Nat → Nat) : Prop where
  len : vs.length = fs.length
  nil : ctx [] = invalidContext
  small : ∀ p, ctx p ≤ invalidContext
  known : ∀ (k : Nat) F p, fs[k]? = some F → p.length = k + 1 → (∀ w ∈ p, w < 2 ^ 32) →
    (ctx p < invalidContext ↔ inFile F p)
  inj : ∀ p q, p.length = q.length → p.length ≤ fs.length → (∀ w ∈ p, w < 2 ^ 32) → (∀ w ∈ q, w < 2 ^ 32) →
    ctx p < invalidContext → ctx p = ctx q → p = q
  get : ∀ (k : Nat) F v p w, fs[k]? = some F → vs[k]? = some v → p.length = k → (∀ x ∈ p, x < 2 ^ 32) → w < 2 ^ 32 →
    v.getCount w (ctx p) = .ok (totalCount F (p ++ [w]) % 2 ^ 32, ctx (p ++ [w]))
  sub : ∀ (k : Nat) F v p, fs[k]? = some F → vs[k]? = some v → p.length = k → (∀ x ∈ p, x < 2 ^ 32) →
    (k = 0 ∨ ctx p < invalidContext) →
    ((∃ w, inFile F (p ++ [w])) → ∃ s, v.subVector (ctx p) = some s ∧ ∀ w, s.getCount w (ctx p) = v.getCount w (ctx p)) ∧
    ((¬ ∃ w, inFile F (p ++ [w])) → v.subVector (ctx p) = none)
  total : ∀ (k : Nat) F v, fs[k]? = some F → vs[k]? = some v → v.total = (F.map Prod.snd).sum % 2 ^ 32

theorem invalidContext_eq : invalidContext = 4294967293 := by decide

section
variable {fs : List (List (List Nat × Nat))} {vs : List PackedArray} {ctx : List Nat → Nat} (L : Levels fs vs ctx)
include L

theorem vectorPut_eq (count : Nat) (tree : List NGramNode) (rest : List Nat) : ∀ (pre : List Nat) (parents : List PackedArray),
    parents = vs.drop pre.length → pre.length ≤ vs.length → parents.length + 1 = rest.length →
    (∀ w ∈ pre ++ rest, w < 2 ^ 32) →
    vectorPut count tree parents rest (ctx pre) =
      .ok (treePut (pack (ctx (pre ++ rest).dropLast) ((pre ++ rest).getLastD 0)) count tree) := by
  induction rest with
  | nil => intro pre parents _ _ h; simp at h
  | cons w rest ih =>
    intro pre parents hp hle hlen hw
    cases rest with
    | nil =>
      have h1 : (pre ++ [w]).dropLast = pre := by simp
      have h2 : (pre ++ [w]).getLastD 0 = w := by simp [List.getLastD_eq_getLast?]
      rw [h1, h2]
      have hs := L.small pre
      have : ¬ ctx pre > maxContextOffset := by
        unfold invalidContext at hs; omega
      cases parents <;> simp [vectorPut, makeKey, this]
    | cons w2 rest =>
      cases hpar : parents with
      | nil => rw [hpar] at hlen; simp at hlen
      | cons v ps =>
        have hlt : pre.length < vs.length := by
          rw [hpar] at hp
          by_contra hge
          rw [List.drop_eq_nil_of_le (by omega)] at hp; cases hp
        have hv : vs[pre.length]? = some v := by
          have := congrArg List.head? hp
          rw [hpar, List.head?_drop] at this
          simpa using this.symm
        have hflt : pre.length < fs.length := by have := L.len; omega
        have hF : fs[pre.length]? = some fs[pre.length] := List.getElem?_eq_getElem hflt
        have hg := L.get pre.length _ v pre w hF hv rfl (fun x hx => hw x (by simp [hx])) (hw w (by simp))
        simp only [vectorPut, getContextOffset_eq hg]
        have := ih (pre ++ [w]) ps ?_ (by simp; omega) ?_ (by simpa using hw)
        · rw [this]; simp
        · rw [hpar] at hp
          have := congrArg List.tail hp
          simpa [List.tail_drop] using this
        · rw [hpar] at hlen; simpa using hlen

/-- The key of an n-gram. -/
def gramKey (ctx : List Nat → Nat) (g : List Nat) : Nat := pack (ctx g.dropLast) (g.getLastD 0)

theorem builderPuts_ok (F : List (List Nat × Nat)) (hF : ∀ e ∈ F, e.1.length = vs.length + 1)
    (hw : ∀ e ∈ F, ∀ w ∈ e.1, w < 2 ^ 32) (hc : ∀ e ∈ F, e.2 < 2 ^ 32) :
    ∀ (es : List (Nat × Nat)) (t : List NGramNode), TreeInv es t →
    ∃ t', builderPuts vs t F = .ok t' ∧ TreeInv (es ++ F.map fun e => (gramKey ctx e.1, e.2)) t' := by
  induction F with
  | nil => intro es t h; exact ⟨t, rfl, by simpa using h⟩
  | cons e F ih =>
    intro es t h
    obtain ⟨g, c⟩ := e
    have hl := hF (g, c) (by simp)
    simp only at hl
    have hput : builderPut vs t g c = .ok (treePut (gramKey ctx g) c t) := by
      unfold builderPut
      rw [if_neg (by omega)]
      have := vectorPut_eq L c t g [] vs (by simp) (by simp) (by omega) (by simpa using hw (g, c) (by simp))
      rw [L.nil] at this
      simpa [gramKey] using this
    obtain ⟨t', h1, h2⟩ := ih (fun e he => hF e (by simp [he])) (fun e he => hw e (by simp [he]))
      (fun e he => hc e (by simp [he])) _ _ (treeInv_put h (k := gramKey ctx g) pack_lt (hc (g, c) (by simp)))
    refine ⟨t', ?_, by simpa using h2⟩
    simp only [builderPuts, hput, h1]

end

/-- The sum of the counts of a tree, modulo 2^32. -/
theorem sum_treePut (k c : Nat) (t : List NGramNode) :
    ((treePut k c t).map Prod.snd).sum % 2 ^ 32 = ((t.map Prod.snd).sum + c) % 2 ^ 32 := by
  induction t with
  | nil => simp [treePut]
  | cons x t ih =>
    obtain ⟨k', c'⟩ := x
    simp only [treePut]
    split
    · simp; omega
    · split
      · simp only [List.map_cons, List.sum_cons]; unfold u32; omega
      · simp only [List.map_cons, List.sum_cons]; omega

theorem totalOf_eq (nodes : List NGramNode) : ∀ t, totalOf t nodes % 2 ^ 32 = (t + (nodes.map Prod.snd).sum) % 2 ^ 32 := by
  induction nodes with
  | nil => intro t; simp [totalOf]
  | cons n nodes ih =>
    intro t
    have := ih (u32 (t + n.2))
    simp only [totalOf, List.foldl_cons, List.map_cons, List.sum_cons] at this ⊢
    rw [this]; unfold u32; omega

theorem totalOf_lt (nodes : List NGramNode) : ∀ t < 2 ^ 32, totalOf t nodes < 2 ^ 32 := by
  induction nodes with
  | nil => intro t ht; simpa [totalOf] using ht
  | cons n nodes ih =>
    intro t ht
    exact ih (u32 (t + n.2)) (Nat.mod_lt _ (by decide))

theorem builderPuts_sum {vs : List PackedArray} {F : List (List Nat × Nat)} : ∀ {t t' : List NGramNode},
    builderPuts vs t F = .ok t' → (t'.map Prod.snd).sum % 2 ^ 32 = ((t.map Prod.snd).sum + (F.map Prod.snd).sum) % 2 ^ 32 := by
  induction F with
  | nil => intro t t' h; injection h with h; subst h; simp
  | cons e F ih =>
    intro t t' h
    obtain ⟨g, c⟩ := e
    simp only [builderPuts] at h
    cases hp : builderPut vs t g c with
    | error e => rw [hp] at h; cases h
    | ok t1 =>
      rw [hp] at h
      have h2 := ih h
      have h1 : (t1.map Prod.snd).sum % 2 ^ 32 = ((t.map Prod.snd).sum + c) % 2 ^ 32 := by
        unfold builderPut at hp
        split at hp
        · cases hp
        · rename_i hlen
          have : ∀ (g : List Nat) (parents : List PackedArray) (x : Nat), g.length = parents.length + 1 →
              ∀ {t1}, vectorPut c t parents g x = .ok t1 → ∃ k, t1 = treePut k c t := by
            intro g
            induction g with
            | nil => intro ps x hl; simp at hl
            | cons w rest ih =>
              intro ps x hl t1 hv
              cases rest with
              | nil =>
                have hps : ps = [] := by simpa using hl
                subst hps
                simp only [vectorPut] at hv
                split at hv
                · cases hv
                · injection hv with hv; exact ⟨_, hv.symm⟩
              | cons w2 rest =>
                cases ps with
                | nil => simp at hl
                | cons v ps =>
                  simp only [vectorPut] at hv
                  split at hv
                  · cases hv
                  · exact ih ps _ (by simpa using hl) hv
          obtain ⟨k, rfl⟩ := this g vs invalidContext (by omega) hp
          exact sum_treePut k c t
      simp only [List.map_cons, List.sum_cons]
      omega

section
variable {fs : List (List (List Nat × Nat))} {vs : List PackedArray} {ctx : List Nat → Nat} (L : Levels fs vs ctx)
include L

theorem levels_step (F : List (List Nat × Nat)) (hlen : F.length ≤ invalidContext)
    (hF : ∀ e ∈ F, e.1.length = vs.length + 1) (hw : ∀ e ∈ F, ∀ w ∈ e.1, w < 2 ^ 32) (hc : ∀ e ∈ F, e.2 < 2 ^ 32)
    (hcl : ∀ e ∈ F, vs.length = 0 ∨ ctx e.1.dropLast < invalidContext) :
    ∃ t ctx', builderPuts vs [] F = .ok t ∧ Levels (fs ++ [F]) (vs ++ [createPackedArray t]) ctx' := by
  obtain ⟨t, hb, hT⟩ := builderPuts_ok L F hF hw hc [] [] ⟨⟨by simp, by simp⟩, by simp, by simp⟩
  simp only [List.nil_append] at hT
  have htl : t.length ≤ invalidContext := by have := hT.len; simp at this; omega
  have hi := invalidContext_eq
  -- keys identify n-grams
  have hkey : ∀ p w e, p.length = vs.length → (∀ x ∈ p, x < 2 ^ 32) → w < 2 ^ 32 → e ∈ F →
      gramKey ctx e.1 = pack (ctx p) w → e.1 = p ++ [w] := by
    intro p w e hp hpw hwlt he heq
    have hel := hF e he
    have hne : e.1 ≠ [] := by intro h; rw [h] at hel; simp at hel
    have hd : e.1 = e.1.dropLast ++ [e.1.getLastD 0] := by
      conv => lhs; rw [← List.dropLast_append_getLast hne]
      rw [List.getLastD_eq_getLast?, List.getLast?_eq_getLast_of_ne_nil hne]; rfl
    have hdw : ∀ x ∈ e.1.dropLast, x < 2 ^ 32 := fun x hx => hw e he x (List.dropLast_subset _ hx)
    have hlw : e.1.getLastD 0 < 2 ^ 32 := hw e he _ (by rw [hd]; simp)
    have hc1 := L.small e.1.dropLast
    have hc2 := L.small p
    obtain ⟨h1, h2⟩ := pack_inj (by omega) hlw (by omega) hwlt heq
    have hdl : e.1.dropLast.length = p.length := by simp; omega
    have : e.1.dropLast = p := by
      rcases hcl e he with h0 | h0
      · have e1 : e.1.dropLast = [] := List.eq_nil_of_length_eq_zero (by omega)
        have e2 : p = [] := List.eq_nil_of_length_eq_zero (by omega)
        rw [e1, e2]
      · exact L.inj _ _ hdl (by have := L.len; omega) hdw hpw h0 h1
    rw [hd, this, h2]
  have hkt : ∀ p w, p.length = vs.length → (∀ x ∈ p, x < 2 ^ 32) → w < 2 ^ 32 →
      keyTotal (F.map fun e => (gramKey ctx e.1, e.2)) (pack (ctx p) w) = totalCount F (p ++ [w]) := by
    intro p w hp hpw hwlt
    have : ∀ e ∈ F, (gramKey ctx e.1 == pack (ctx p) w) = decide (e.1 = p ++ [w]) := by
      intro e he
      by_cases h : e.1 = p ++ [w]
      · have : gramKey ctx e.1 = pack (ctx p) w := by
          rw [h]; simp [gramKey, List.getLastD_eq_getLast?]
        rw [this]; simp [h]
      · have : gramKey ctx e.1 ≠ pack (ctx p) w := fun hh => h (hkey p w e hp hpw hwlt he hh)
        simp [h, this]
    unfold keyTotal totalCount
    rw [List.filter_map, List.map_map]
    congr 1
    have h2 : List.filter ((fun e => e.1 == pack (ctx p) w) ∘ fun e : List Nat × Nat => (gramKey ctx e.1, e.2)) F =
        List.filter (fun pc => decide (pc.1 = p ++ [w])) F := by
      apply List.filter_congr
      intro e he
      simpa using this e he
    rw [h2]
    rfl
  have hmem : ∀ p w, p.length = vs.length → (∀ x ∈ p, x < 2 ^ 32) → w < 2 ^ 32 → ∀ d,
      ((pack (ctx p) w, d) ∈ t ↔ inFile F (p ++ [w]) ∧ d = totalCount F (p ++ [w]) % 2 ^ 32) := by
    intro p w hp hpw hwlt d
    rw [hT.mem, hkt p w hp hpw hwlt]
    constructor
    · rintro ⟨⟨e, he, h1⟩, h2⟩
      rw [List.mem_map] at he
      obtain ⟨e0, he0, rfl⟩ := he
      exact ⟨⟨e0, he0, hkey p w e0 hp hpw hwlt he0 h1⟩, h2⟩
    · rintro ⟨⟨e, he, h1⟩, h2⟩
      refine ⟨⟨(gramKey ctx e.1, e.2), List.mem_map.2 ⟨e, he, rfl⟩, ?_⟩, h2⟩
      rw [h1]; simp [gramKey, List.getLastD_eq_getLast?]
  -- the new vector
  have hpres : ∀ p w, p.length = vs.length → (∀ x ∈ p, x < 2 ^ 32) → w < 2 ^ 32 → inFile F (p ++ [w]) →
      ∃ k < t.length, t[k]? = some (pack (ctx p) w, totalCount F (p ++ [w]) % 2 ^ 32) ∧
        (createPackedArray t).getCount w (ctx p) = .ok (totalCount F (p ++ [w]) % 2 ^ 32, k) := by
    intro p w hp hpw hwlt hin
    obtain ⟨k, hk⟩ := List.getElem?_of_mem ((hmem p w hp hpw hwlt _).2 ⟨hin, rfl⟩)
    refine ⟨k, ?_, hk, vector_at hT.sorted htl hwlt (by have := L.small p; omega) hk⟩
    exact (List.getElem?_eq_some_iff.1 hk).1
  have habs : ∀ p w, p.length = vs.length → (∀ x ∈ p, x < 2 ^ 32) → w < 2 ^ 32 → ¬ inFile F (p ++ [w]) →
      (createPackedArray t).getCount w (ctx p) = .ok (0, invalidContext) := by
    intro p w hp hpw hwlt hin
    apply vector_absent hT.sorted htl
    rintro ⟨q, d⟩ hn heq
    simp only at heq
    subst heq
    exact hin ((hmem p w hp hpw hwlt d).1 hn).1
  let off : List Nat → Nat := fun g =>
    match (createPackedArray t).getCount (g.getLastD 0) (ctx g.dropLast) with
    | .ok (_, i) => if i < invalidContext then i else invalidContext
    | .error _ => invalidContext
  let ctx' : List Nat → Nat := fun g => if g.length = vs.length + 1 then off g else ctx g
  have hold : ∀ g, g.length ≠ vs.length + 1 → ctx' g = ctx g := fun g hg => if_neg hg
  have hnew : ∀ p w, p.length = vs.length → ctx' (p ++ [w]) = off (p ++ [w]) := fun p w hp => if_pos (by simp [hp])
  have hoff : ∀ p w, off (p ++ [w]) = match (createPackedArray t).getCount w (ctx p) with
    | .ok (_, i) => if i < invalidContext then i else invalidContext
    | .error _ => invalidContext := by
    intro p w; simp [off, List.getLastD_eq_getLast?]
  have hsplit : ∀ g : List Nat, g.length = vs.length + 1 → ∃ p w, g = p ++ [w] ∧ p.length = vs.length := by
    intro g hg
    have hne : g ≠ [] := by intro h; rw [h] at hg; simp at hg
    exact ⟨g.dropLast, g.getLast hne, (List.dropLast_append_getLast hne).symm, by simp; omega⟩
  have hnewp : ∀ p w, p.length = vs.length → (∀ x ∈ p, x < 2 ^ 32) → w < 2 ^ 32 → inFile F (p ++ [w]) →
      ∃ k < t.length, t[k]? = some (pack (ctx p) w, totalCount F (p ++ [w]) % 2 ^ 32) ∧
        (createPackedArray t).getCount w (ctx p) = .ok (totalCount F (p ++ [w]) % 2 ^ 32, k) ∧ ctx' (p ++ [w]) = k := by
    intro p w hp hpw hwlt hin
    obtain ⟨k, hk, h1, h2⟩ := hpres p w hp hpw hwlt hin
    refine ⟨k, hk, h1, h2, ?_⟩
    rw [hnew p w hp, hoff, h2]
    simp only
    rw [if_pos (by omega)]
  have hnewa : ∀ p w, p.length = vs.length → (∀ x ∈ p, x < 2 ^ 32) → w < 2 ^ 32 → ¬ inFile F (p ++ [w]) →
      ctx' (p ++ [w]) = invalidContext := by
    intro p w hp hpw hwlt hin
    rw [hnew p w hp, hoff, habs p w hp hpw hwlt hin]
    simp
  refine ⟨t, ctx', hb, ?_⟩
  have hfl := L.len
  constructor
  · simp [hfl]
  · rw [hold [] (by simp)]; exact L.nil
  · intro p
    by_cases hp : p.length = vs.length + 1
    · obtain ⟨q, w, rfl, hq⟩ := hsplit p hp
      rw [hnew q w hq, hoff]
      split
      · split <;> omega
      · omega
    · rw [hold p hp]; exact L.small p
  · intro k F' p hk hp hpw
    by_cases hlast : k = fs.length
    · subst hlast
      rw [List.getElem?_append_right (by omega)] at hk
      simp at hk
      subst hk
      obtain ⟨q, w, rfl, hq⟩ := hsplit p (by omega)
      have hqw : ∀ x ∈ q, x < 2 ^ 32 := fun x hx => hpw x (by simp [hx])
      have hww : w < 2 ^ 32 := hpw w (by simp)
      constructor
      · intro hlt
        by_contra hin
        rw [hnewa q w hq hqw hww hin] at hlt
        omega
      · intro hin
        obtain ⟨k, hk, _, _, h3⟩ := hnewp q w hq hqw hww hin
        omega
    · have hklt : k < fs.length := by
        have := (List.getElem?_eq_some_iff.1 hk).1
        simp at this; omega
      rw [List.getElem?_append_left hklt] at hk
      rw [hold p (by omega)]
      exact L.known k F' p hk hp hpw
  · intro p q hpq hple hpw hqw hlt heq
    by_cases hp : p.length = vs.length + 1
    · obtain ⟨p', w, rfl, hp'⟩ := hsplit p hp
      obtain ⟨q', w', rfl, hq'⟩ := hsplit q (by omega)
      have h1 : ∀ x ∈ p', x < 2 ^ 32 := fun x hx => hpw x (by simp [hx])
      have h2 : ∀ x ∈ q', x < 2 ^ 32 := fun x hx => hqw x (by simp [hx])
      have h3 : w < 2 ^ 32 := hpw w (by simp)
      have h4 : w' < 2 ^ 32 := hqw w' (by simp)
      have i1 : inFile F (p' ++ [w]) := by
        by_contra hin
        rw [hnewa p' w hp' h1 h3 hin] at hlt; omega
      have i2 : inFile F (q' ++ [w']) := by
        by_contra hin
        rw [hnewa q' w' hq' h2 h4 hin] at heq; omega
      obtain ⟨k1, _, e1, _, c1⟩ := hnewp p' w hp' h1 h3 i1
      obtain ⟨k2, _, e2, _, c2⟩ := hnewp q' w' hq' h2 h4 i2
      have hk : k1 = k2 := by omega
      subst hk
      rw [e1] at e2
      injection e2 with e2
      injection e2 with e2 _
      obtain ⟨e, he, hee⟩ := i1
      have := hkey q' w' e hq' h2 h4 he (by rw [hee, ← e2]; simp [gramKey, List.getLastD_eq_getLast?])
      rw [← this, hee]
    · rw [hold p hp] at hlt heq
      rw [hold q (by omega)] at heq
      refine L.inj p q hpq ?_ hpw hqw hlt heq
      simp at hple; omega
  · intro k F' v p w hk hv hp hpw hwlt
    by_cases hlast : k = fs.length
    · subst hlast
      rw [List.getElem?_append_right (by omega)] at hk
      rw [List.getElem?_append_right (by omega)] at hv
      simp at hk
      simp [hfl] at hv
      subst hk hv
      rw [hold p (by omega)]
      by_cases hin : inFile F (p ++ [w])
      · obtain ⟨k1, _, _, e1, c1⟩ := hnewp p w (by omega) hpw hwlt hin
        rw [e1, c1]
      · rw [habs p w (by omega) hpw hwlt hin, hnewa p w (by omega) hpw hwlt hin, totalCount_zero hin, Nat.zero_mod]
    · have hklt : k < fs.length := by
        have := (List.getElem?_eq_some_iff.1 hk).1
        simp at this; omega
      rw [List.getElem?_append_left hklt] at hk
      rw [List.getElem?_append_left (by omega)] at hv
      rw [hold p (by omega), hold (p ++ [w]) (by simp; omega)]
      exact L.get k F' v p w hk hv hp hpw hwlt
  · intro k F' v p hk hv hp hpw hctx
    by_cases hlast : k = fs.length
    · subst hlast
      rw [List.getElem?_append_right (by omega)] at hk
      rw [List.getElem?_append_right (by omega)] at hv
      simp at hk
      simp [hfl] at hv
      subst hk hv
      rw [hold p (by omega)]
      refine ⟨?_, ?_⟩
      · rintro ⟨w, hin⟩
        have hww : w < 2 ^ 32 := by
          obtain ⟨e, he, hee⟩ := hin
          exact hw e he w (by rw [hee]; simp)
        exact vector_sub_some hT.sorted htl hww (by have := L.small p; omega)
          ((hmem p w (by omega) hpw hww _).2 ⟨hin, rfl⟩)
      · intro hno
        apply vector_sub_none hT.sorted htl
        intro w c hww hm
        exact hno ⟨w, ((hmem p w (by omega) hpw hww c).1 hm).1⟩
    · have hklt : k < fs.length := by
        have := (List.getElem?_eq_some_iff.1 hk).1
        simp at this; omega
      rw [List.getElem?_append_left hklt] at hk
      rw [List.getElem?_append_left (by omega)] at hv
      rw [hold p (by omega)] at hctx ⊢
      exact L.sub k F' v p hk hv hp hpw hctx
  · intro k F' v hk hv
    by_cases hlast : k = fs.length
    · subst hlast
      rw [List.getElem?_append_right (by omega)] at hk
      rw [List.getElem?_append_right (by omega)] at hv
      simp at hk
      simp [hfl] at hv
      subst hk hv
      rw [createPackedArray_eq hT.sorted htl]
      have h1 := totalOf_eq t 0
      have h2 := totalOf_lt t 0 (by decide)
      have h3 := builderPuts_sum hb
      simp only [List.map_nil, List.sum_nil, Nat.zero_add] at h1 h3
      show totalOf 0 t = _
      omega
    · have hklt : k < fs.length := by
        have := (List.getElem?_eq_some_iff.1 hk).1
        simp at this; omega
      rw [List.getElem?_append_left hklt] at hk
      rw [List.getElem?_append_left (by omega)] at hv
      exact L.total k F' v hk hv

end

theorem levels_nil : Levels [] [] (fun _ => invalidContext) := by
  constructor
  · rfl
  · rfl
  · intro _; exact Nat.le_refl _
  · intro k F p h; simp at h
  · intro p q hpq hl _ _ h; exact absurd h (Nat.lt_irrefl _)
  · intro k F v p w h; simp at h
  · intro k F v p h; simp at h
  · intro k F v h; simp at h

theorem readVectors_ok (files : List (List (List Nat × Nat))) (hG : Spec.GoodFiles files) :
    ∀ (rest fs : List (List (List Nat × Nat))) (vs : List PackedArray) (ctx : List Nat → Nat), files = fs ++ rest →
    Levels fs vs ctx → ∃ vs' ctx', readVectors vs rest = .ok vs' ∧ Levels files vs' ctx' := by
  intro rest
  induction rest with
  | nil =>
    intro fs vs ctx he L
    simp at he
    subst he
    exact ⟨vs, ctx, rfl, L⟩
  | cons F rest ih =>
    intro fs vs ctx he L
    have hk : files[fs.length]? = some F := by rw [he]; simp
    have hmem : F ∈ files := List.mem_of_getElem? hk
    have hl := L.len
    obtain ⟨t, ctx', h1, h2⟩ := levels_step L F (by have := hG.lines F hmem; have := invalidContext_eq; omega)
      (fun e he => by rw [hG.order _ F hk e he]; omega) (hG.words F hmem) (hG.counts F hmem) (by
        intro e hee
        cases hfl : fs.length with
        | zero => left; omega
        | succ m =>
          right
          have hdl : e.1.dropLast.length = m + 1 := by
            rw [List.length_dropLast, hG.order _ F hk e hee]; omega
          rw [hfl] at hk
          obtain ⟨e2, he2, heq⟩ := hG.closed m F hk e hee
          have hm : m < fs.length := by omega
          rw [L.known m fs[m] _ (List.getElem?_eq_getElem hm) hdl
            (fun w hw => hG.words F hmem e hee w (List.dropLast_subset _ hw))]
          refine ⟨e2, ?_, heq⟩
          rw [hdl, he] at he2
          simpa [List.getD_eq_getElem?_getD, List.getElem?_append_left hm, List.getElem?_eq_getElem hm] using he2)
    simp only [readVectors, h1]
    exact ih (fs ++ [F]) _ ctx' (by rw [he]; simp) h2

theorem readModel_ok {files : List (List (List Nat × Nat))} (hG : Spec.GoodFiles files) (hne : files ≠ []) :
    ∃ vs ctx, readModel files = .ok vs ∧ Levels files vs ctx := by
  obtain ⟨vs, ctx, h1, h2⟩ := readVectors_ok files hG files [] [] _ rfl levels_nil
  refine ⟨vs, ctx, ?_, h2⟩
  unfold readModel
  rw [if_neg (by simpa using hne), h1]

end Verif
