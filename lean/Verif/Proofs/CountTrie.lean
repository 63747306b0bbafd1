import Verif.Model.CountTrie
import Verif.Spec.CountTrie
import Mathlib.Data.List.Basic
import Mathlib.Data.List.Perm.Subperm
import Mathlib.Data.List.Nodup
/- Proofs about the count trie. -/
namespace Verif
open Spec (totalCount)

/-! ### foldE -/

theorem foldE_append {σ α : Type} (f : σ → α → Except Err σ) (s : σ) (l l' : List α) :
    foldE f s (l ++ l') = match foldE f s l with
      | .error e => .error e
      | .ok s' => foldE f s' l' := by
  induction l generalizing s with
  | nil => rfl
  | cons x l ih =>
    simp only [List.cons_append, foldE]
    cases f s x with
    | error e => rfl
    | ok s' => exact ih s'

theorem foldE_flatMap {σ α β : Type} (f : σ → β → Except Err σ) (g : α → List β) (s : σ) (l : List α) :
    foldE f s (l.flatMap g) = foldE (fun s x => foldE f s (g x)) s l := by
  induction l generalizing s with
  | nil => rfl
  | cons x l ih =>
    rw [List.flatMap_cons, foldE_append]
    simp only [foldE]
    cases foldE f s (g x) with
    | error e => rfl
    | ok s' => exact ih s'

theorem foldE_congr {σ α : Type} {f g : σ → α → Except Err σ} (s : σ) (l : List α)
    (h : ∀ x ∈ l, ∀ s, f s x = g s x) : foldE f s l = foldE g s l := by
  induction l generalizing s with
  | nil => rfl
  | cons x l ih =>
    simp only [foldE]
    rw [h x (by simp) s]
    cases g s x with
    | error e => rfl
    | ok s' => exact ih s' fun y hy => h y (by simp [hy])

theorem foldE_record (calls l : List (List Bytes × Nat)) :
    foldE (fun s pc => record s pc.1 pc.2) calls l = .ok (calls ++ l) := by
  induction l generalizing calls with
  | nil => simp [foldE]
  | cons x l ih => exact (ih (calls ++ [(x.1, x.2)])).trans (by simp)

/-! ### nodes -/

namespace CTNode

theorem lookup_setChild (w : Nat) (c : CTNode) (cs : List (Nat × CTNode)) (v : Nat) :
    child (setChild w c cs) v = if v = w then some c else child cs v := by
  induction cs with
  | nil =>
    simp only [setChild, child, List.lookup]
    by_cases h : v = w
    · simp [h]
    · have h' : (v == w) = false := by simpa using h
      simp [h, h']
  | cons x cs ih =>
    obtain ⟨u, d⟩ := x
    simp only [setChild]
    by_cases huw : u = w
    · subst huw
      simp only [if_true, child, List.lookup]
      by_cases h : v = u
      · simp [h]
      · have : (v == u) = false := by simpa using h
        simp [this, h]
    · simp only [huw, if_false]
      simp only [child, List.lookup] at ih ⊢
      by_cases h : v = u
      · subst h; simp [huw]
      · have h' : (v == u) = false := by simpa using h
        simp only [h']
        exact ih

theorem keys_setChild (w : Nat) (c : CTNode) (cs : List (Nat × CTNode)) :
    (setChild w c cs).map Prod.fst = if w ∈ cs.map Prod.fst then cs.map Prod.fst else cs.map Prod.fst ++ [w] := by
  induction cs with
  | nil => simp [setChild]
  | cons x cs ih =>
    obtain ⟨u, d⟩ := x
    simp only [setChild]
    by_cases huw : u = w
    · subst huw; simp
    · simp only [huw, if_false, List.map_cons, ih]
      have : w ≠ u := fun h => huw h.symm
      by_cases hm : w ∈ cs.map Prod.fst
      · simp [hm, this]
      · simp [hm, this]

theorem nodup_setChild {w : Nat} {c : CTNode} {cs : List (Nat × CTNode)} (h : (cs.map Prod.fst).Nodup) :
    ((setChild w c cs).map Prod.fst).Nodup := by
  rw [keys_setChild]
  split
  · exact h
  · rename_i hm
    exact List.nodup_append.2 ⟨h, by simp, by rintro a ha b hb rfl; simp at hb; subst hb; exact hm ha⟩

theorem mem_of_child {cs : List (Nat × CTNode)} {w : Nat} {c : CTNode} (h : child cs w = some c) : (w, c) ∈ cs := by
  induction cs with
  | nil => cases h
  | cons x cs ih =>
    obtain ⟨u, d⟩ := x
    simp only [child, List.lookup] at h ih
    by_cases hw : w = u
    · subst hw
      simp at h; subst h; simp
    · have : (w == u) = false := by simpa using hw
      simp only [this] at h
      exact List.mem_cons_of_mem _ (ih h)

theorem child_of_mem {cs : List (Nat × CTNode)} {w : Nat} {c : CTNode} (hn : (cs.map Prod.fst).Nodup)
    (h : (w, c) ∈ cs) : child cs w = some c := by
  induction cs with
  | nil => cases h
  | cons x cs ih =>
    obtain ⟨u, d⟩ := x
    simp only [List.map_cons, List.nodup_cons] at hn
    simp only [child, List.lookup] at ih ⊢
    rcases List.mem_cons.1 h with h' | h'
    · cases h'; simp
    · have hne : w ≠ u := by
        rintro rfl
        exact hn.1 (List.mem_map.2 ⟨_, h', rfl⟩)
      have : (w == u) = false := by simpa using hne
      simp only [this]
      exact ih hn.2 h'

/-- The count stored under a path of word ids (0 if there is none). -/
def den : CTNode → List Nat → Nat
  | n, [] => n.count
  | n, i :: is =>
    match child n.children i with
    | none => 0
    | some c => den c is

/-- Well-formed nodes of depth at most `d`: the keys are distinct indexes into the token table. -/
def WF (size : Nat) : Nat → CTNode → Prop
  | 0, n => n.children = []
  | d + 1, n => (n.children.map Prod.fst).Nodup ∧ ∀ wc ∈ n.children, wc.1 < size ∧ WF size d wc.2

theorem WF.mono {size size' d d' : Nat} {n : CTNode} (h : WF size d n) (hs : size ≤ size') (hd : d ≤ d') :
    WF size' d' n := by
  induction d generalizing d' n with
  | zero =>
    cases d' with
    | zero => exact h
    | succ d' =>
      have h : n.children = [] := h
      exact ⟨by simp [h], by simp [h]⟩
  | succ d ih =>
    cases d' with
    | zero => omega
    | succ d' =>
      exact ⟨h.1, fun wc hwc => ⟨by have := (h.2 wc hwc).1; omega, ih (h.2 wc hwc).2 (by omega)⟩⟩

theorem WF.fresh (size d : Nat) : WF size d .fresh := by
  cases d with
  | zero => rfl
  | succ d => exact ⟨by simp [CTNode.fresh, children], by simp [CTNode.fresh, children]⟩

theorem den_fresh (ids : List Nat) : den .fresh ids = 0 := by
  cases ids with
  | nil => rfl
  | cons i is => rfl

/-- `Put` on word ids. -/
def putIds (count : Nat) : CTNode → List Nat → CTNode
  | n, [] => .mk (u32 (n.count + count)) n.children
  | n, w :: rest => .mk n.count (setChild w (putIds count ((child n.children w).getD .fresh) rest) n.children)

theorem den_putIds (count : Nat) (n : CTNode) (ids q : List Nat) :
    den (putIds count n ids) q = if q = ids then u32 (den n q + count) else den n q := by
  induction ids generalizing n q with
  | nil =>
    cases q with
    | nil => simp [putIds, den, CTNode.count]
    | cons i is => simp [putIds, den, CTNode.children]
  | cons w rest ih =>
    cases q with
    | nil => simp [putIds, den, CTNode.count]
    | cons i is =>
      simp only [putIds, den, CTNode.children, lookup_setChild]
      by_cases hi : i = w
      · subst hi
        simp only [if_true, ih, List.cons.injEq, true_and]
        cases hc : child n.children i with
        | none => simp only [CTNode.children] at hc; simp only [hc, Option.getD_none, den_fresh]
        | some c => simp only [CTNode.children] at hc; simp only [hc, Option.getD_some]
      · have hne : ¬ (i :: is = w :: rest) := by simp [hi]
        simp only [hi, if_false, hne]

theorem WF_putIds {size : Nat} (count : Nat) (n : CTNode) (ids : List Nat) (d : Nat) (h : WF size d n)
    (hl : ids.length ≤ d) (hs : ∀ i ∈ ids, i < size) : WF size d (putIds count n ids) := by
  induction ids generalizing n d with
  | nil =>
    cases d with
    | zero => exact h
    | succ d => exact h
  | cons w rest ih =>
    cases d with
    | zero => simp at hl
    | succ d =>
      have hc : WF size d ((child n.children w).getD .fresh) := by
        cases hc : child n.children w with
        | none => exact WF.fresh size d
        | some c => exact (h.2 _ (mem_of_child hc)).2
      have ihc := ih _ d hc (by simpa using hl) fun i hi => hs i (by simp [hi])
      have hn : ((setChild w (putIds count ((child n.children w).getD .fresh) rest) n.children).map Prod.fst).Nodup :=
        nodup_setChild h.1
      refine ⟨hn, ?_⟩
      rintro ⟨v, c⟩ hvc
      have hvc' := child_of_mem hn hvc
      rw [lookup_setChild] at hvc'
      split at hvc'
      · rename_i hv
        subst hv
        injection hvc' with hvc'
        subst hvc'
        exact ⟨hs v (by simp), ihc⟩
      · exact h.2 _ (mem_of_child hvc')

end CTNode

open CTNode

/-! ### the token table -/

/-- The table and the holder describe the same bijection. -/
structure TInv (t : TokenTable) : Prop where
  nodup : t.holder.Nodup
  agree : ∀ tok i, t.table.lookup tok = some i ↔ t.holder[i]? = some tok
  size : t.holder.length < 2 ^ 32

theorem mapTo_ok {t : TokenTable} (ht : TInv t) (tok : Bytes) (hs : tok ∉ t.holder → t.holder.length + 1 < 2 ^ 32) :
    TInv (t.mapTo tok).1 ∧ t.holder <+: (t.mapTo tok).1.holder ∧
      (t.mapTo tok).1.holder[(t.mapTo tok).2]? = some tok ∧
      ∀ x ∈ (t.mapTo tok).1.holder, x ∈ t.holder ∨ x = tok := by
  unfold TokenTable.mapTo
  cases hl : t.table.lookup tok with
  | some i => exact ⟨ht, List.prefix_refl _, (ht.agree tok i).1 hl, fun x hx => .inl hx⟩
  | none =>
    have hnot : tok ∉ t.holder := by
      intro hm
      obtain ⟨i, hi⟩ := List.getElem?_of_mem hm
      rw [(ht.agree tok i).2 hi] at hl
      cases hl
    have hu : u32 t.holder.length = t.holder.length := Nat.mod_eq_of_lt ht.size
    simp only [hu]
    refine ⟨⟨?_, ?_, ?_⟩, List.prefix_append _ _, ?_, ?_⟩
    · exact List.nodup_append.2 ⟨ht.nodup, by simp, by rintro a ha b hb rfl; simp at hb; subst hb; exact hnot ha⟩
    · intro x i
      simp only [List.lookup]
      by_cases hx : x = tok
      · subst hx
        simp only [beq_self_eq_true, Option.some.injEq]
        constructor
        · rintro rfl; simp
        · intro h
          rw [List.getElem?_append] at h
          split at h
          · exact absurd (List.mem_of_getElem? h) hnot
          · rename_i hge
            by_contra hne
            rw [List.getElem?_eq_none (by simp; omega)] at h
            cases h
      · have : (x == tok) = false := by simpa using hx
        simp only [this]
        rw [ht.agree x i, List.getElem?_append]
        split
        · rfl
        · rename_i hge
          constructor
          · intro h; rw [List.getElem?_eq_none (by omega)] at h; cases h
          · intro h
            have := List.mem_of_getElem? h
            simp at this
            exact absurd this hx
    · have := hs hnot
      simpa using this
    · simp
    · intro x hx
      simpa using hx

/-- The ids of a sentence. -/
def mapIds : TokenTable → List Bytes → TokenTable × List Nat
  | t, [] => (t, [])
  | t, w :: ws => ((mapIds (t.mapTo w).1 ws).1, (t.mapTo w).2 :: (mapIds (t.mapTo w).1 ws).2)

theorem putPath_eq (count : Nat) (t : TokenTable) (n : CTNode) (ws : List Bytes) :
    putPath count t n ws = ((mapIds t ws).1, putIds count n (mapIds t ws).2) := by
  induction ws generalizing t n with
  | nil => rfl
  | cons w ws ih =>
    simp only [putPath, mapIds, putIds]
    rw [ih]

/-- The token with a given id. -/
def tokAt (holder : List Bytes) (i : Nat) : Bytes := holder.getD i []

theorem tokAt_prefix {h h' : List Bytes} (hp : h <+: h') {i : Nat} (hi : i < h.length) : tokAt h' i = tokAt h i := by
  obtain ⟨e, rfl⟩ := hp
  simp only [tokAt, List.getD_eq_getElem?_getD]
  rw [List.getElem?_append_left hi]

theorem mapIds_ok {t : TokenTable} (ht : TInv t) {voc : List Bytes} (hv : ∀ x ∈ t.holder, x ∈ voc) (hvs : voc.length < 2 ^ 32)
    (ws : List Bytes) (hw : ∀ w ∈ ws, w ∈ voc) :
    TInv (mapIds t ws).1 ∧ t.holder <+: (mapIds t ws).1.holder ∧ (∀ x ∈ (mapIds t ws).1.holder, x ∈ voc) ∧
      (∀ i ∈ (mapIds t ws).2, i < (mapIds t ws).1.holder.length) ∧
      (mapIds t ws).2.map (tokAt (mapIds t ws).1.holder) = ws := by
  induction ws generalizing t with
  | nil => exact ⟨ht, List.prefix_refl _, hv, by simp [mapIds], rfl⟩
  | cons w ws ih =>
    have hroom : w ∉ t.holder → t.holder.length + 1 < 2 ^ 32 := by
      intro hn
      have hnd : (w :: t.holder).Nodup := List.nodup_cons.2 ⟨hn, ht.nodup⟩
      have : (w :: t.holder).length ≤ voc.length := by
        apply List.Subperm.length_le
        apply List.Nodup.subperm hnd
        intro x hx
        rcases List.mem_cons.1 hx with h | h
        · subst h; exact hw _ (by simp)
        · exact hv x h
      simp at this
      omega
    obtain ⟨h1, h2, h3, h4⟩ := mapTo_ok ht w hroom
    have hv' : ∀ x ∈ (t.mapTo w).1.holder, x ∈ voc := by
      intro x hx
      rcases h4 x hx with h | h
      · exact hv x h
      · subst h; exact hw _ (by simp)
    obtain ⟨i1, i2, i3, i4, i5⟩ := ih h1 hv' fun x hx => hw x (by simp [hx])
    have hlt : (t.mapTo w).2 < (t.mapTo w).1.holder.length := by
      by_contra hc
      rw [List.getElem?_eq_none (by omega)] at h3
      cases h3
    simp only [mapIds]
    refine ⟨i1, h2.trans i2, i3, ?_, ?_⟩
    · intro i hi
      rcases List.mem_cons.1 hi with h | h
      · subst h; exact Nat.lt_of_lt_of_le hlt i2.length_le
      · exact i4 i h
    · rw [List.map_cons, i5, tokAt_prefix i2 hlt]
      congr 1
      simp [tokAt, List.getD_eq_getElem?_getD, h3]

/-! ### the invariant over histories -/

/-- The trie after a history of Put calls. -/
def afterPuts (h : List (List Bytes × Nat)) : CountTrie := h.foldl (fun t pc => t.put pc.1 pc.2) newCountTrie

structure TrieInv (voc : List Bytes) (h : List (List Bytes × Nat)) (t : CountTrie) : Prop where
  tok : TInv t.tokens
  voc : ∀ x ∈ t.tokens.holder, x ∈ voc
  wf : WF t.tokens.holder.length t.depth t.root
  have_ : ∀ pc ∈ h, ∀ w ∈ pc.1, w ∈ t.tokens.holder
  den : ∀ ids : List Nat, (∀ i ∈ ids, i < t.tokens.holder.length) →
    den t.root ids = totalCount h (ids.map (tokAt t.tokens.holder)) % 2 ^ 32
  depth0 : t.depth = 0 ↔ ∀ pc ∈ h, pc.1 = []

theorem den_out {size d : Nat} {n : CTNode} (h : WF size d n) {ids : List Nat} (hne : den n ids ≠ 0) :
    ids.length ≤ d ∧ ∀ i ∈ ids, i < size := by
  induction ids generalizing n d with
  | nil => simp
  | cons i is ih =>
    simp only [CTNode.den] at hne
    cases hc : child n.children i with
    | none => simp [hc] at hne
    | some c =>
      rw [hc] at hne
      have hm := mem_of_child hc
      cases d with
      | zero =>
        have h : n.children = [] := h
        rw [h] at hm; cases hm
      | succ d =>
        obtain ⟨a, b⟩ := h.2 _ hm
        obtain ⟨e1, e2⟩ := ih b hne
        refine ⟨by simpa using e1, ?_⟩
        intro j hj
        rcases List.mem_cons.1 hj with h' | h'
        · subst h'; exact a
        · exact e2 j h'

theorem tokAt_inj {holder : List Bytes} (hn : holder.Nodup) {a b : List Nat} (ha : ∀ i ∈ a, i < holder.length)
    (hb : ∀ i ∈ b, i < holder.length) (h : a.map (tokAt holder) = b.map (tokAt holder)) : a = b := by
  induction a generalizing b with
  | nil => cases b with
    | nil => rfl
    | cons => simp at h
  | cons i a ih =>
    cases b with
    | nil => simp at h
    | cons j b =>
      simp only [List.map_cons, List.cons.injEq] at h
      have hi := ha i (by simp)
      have hj := hb j (by simp)
      have h1 := h.1
      simp only [tokAt, List.getD_eq_getElem?_getD, List.getElem?_eq_getElem hi, List.getElem?_eq_getElem hj,
        Option.getD_some] at h1
      rw [ih (fun x hx => ha x (by simp [hx])) (fun x hx => hb x (by simp [hx])) h.2]
      rw [(List.Nodup.getElem_inj_iff hn).1 h1]

theorem totalCount_append {α : Type} [DecidableEq α] (h : List (List α × Nat)) (p : List α) (c : Nat) (q : List α) :
    totalCount (h ++ [(p, c)]) q = totalCount h q + if q = p then c else 0 := by
  unfold totalCount
  rw [List.filter_append, List.map_append, List.sum_append]
  by_cases hq : q = p
  · subst hq; simp
  · have : ¬ p = q := fun h => hq h.symm
    simp [hq, this]

theorem totalCount_eq_zero {α : Type} [DecidableEq α] {h : List (List α × Nat)} {q : List α}
    (hq : ∀ pc ∈ h, pc.1 ≠ q) : totalCount h q = 0 := by
  unfold totalCount
  rw [List.filter_eq_nil_iff.2]
  · rfl
  · intro pc hpc; simpa using hq pc hpc

theorem trieInv_put {voc : List Bytes} (hvs : voc.length < 2 ^ 32) {h : List (List Bytes × Nat)} {t : CountTrie}
    (inv : TrieInv voc h t) (p : List Bytes) (c : Nat) (hp : ∀ w ∈ p, w ∈ voc) :
    TrieInv voc (h ++ [(p, c)]) (t.put p c) := by
  obtain ⟨m1, m2, m3, m4, m5⟩ := mapIds_ok inv.tok inv.voc hvs p hp
  have hput : t.put p c = ⟨putIds c t.root (mapIds t.tokens p).2, (if p.length > t.depth then p.length else t.depth),
      (mapIds t.tokens p).1⟩ := by
    unfold CountTrie.put
    rw [putPath_eq]
  rw [hput]
  have hlen : (mapIds t.tokens p).2.length = p.length := by
    conv => rhs; rw [← m5]
    simp
  refine ⟨m1, m3, ?_, ?_, ?_, ?_⟩
  · apply WF_putIds
    · exact inv.wf.mono m2.length_le (by simp only []; split <;> omega)
    · rw [hlen]; show p.length ≤ (if p.length > t.depth then p.length else t.depth); split <;> omega
    · exact m4
  · intro pc hpc w hw
    rcases List.mem_append.1 hpc with h' | h'
    · exact m2.subset (inv.have_ pc h' w hw)
    · simp at h'; subst h'
      have hw : w ∈ p := hw
      rw [← m5] at hw
      obtain ⟨i, hi, rfl⟩ := List.mem_map.1 hw
      have := m4 i hi
      simp only [tokAt, List.getD_eq_getElem?_getD, List.getElem?_eq_getElem this, Option.getD_some]
      exact List.getElem_mem _
  · intro ids hids
    simp only at hids
    simp only [den_putIds]
    have hold : CTNode.den t.root ids = totalCount h (ids.map (tokAt (mapIds t.tokens p).1.holder)) % 2 ^ 32 := by
      by_cases hin : ∀ i ∈ ids, i < t.tokens.holder.length
      · rw [inv.den ids hin]
        congr 2
        apply List.map_congr_left
        intro i hi
        rw [tokAt_prefix m2 (hin i hi)]
      · rw [totalCount_eq_zero]
        · by_contra hne
          exact hin (den_out inv.wf hne).2
        · intro pc hpc heq
          apply hin
          intro i hi
          by_contra hge
          have hlt := hids i hi
          have hmem : tokAt (mapIds t.tokens p).1.holder i ∈ pc.1 := by rw [heq]; exact List.mem_map.2 ⟨i, hi, rfl⟩
          have := inv.have_ pc hpc _ hmem
          obtain ⟨j, hj⟩ := List.getElem?_of_mem this
          have hjl : j < t.tokens.holder.length := by
            by_contra hc; rw [List.getElem?_eq_none (by omega)] at hj; cases hj
          have hjt : tokAt (mapIds t.tokens p).1.holder j = tokAt (mapIds t.tokens p).1.holder i := by
            rw [tokAt_prefix m2 hjl]
            simp [tokAt, List.getD_eq_getElem?_getD, hj]
          have := tokAt_inj m1.nodup (a := [j]) (b := [i]) (by simp; exact Nat.lt_of_lt_of_le hjl m2.length_le)
            (by simpa using hlt) (by simpa using hjt)
          simp at this
          omega
    rw [totalCount_append]
    have hiff : ids = (mapIds t.tokens p).2 ↔ ids.map (tokAt (mapIds t.tokens p).1.holder) = p := by
      constructor
      · rintro rfl; exact m5
      · intro he
        apply tokAt_inj m1.nodup hids m4
        rw [he, m5]
    by_cases he : ids = (mapIds t.tokens p).2
    · rw [if_pos he, if_pos (hiff.1 he), hold]
      unfold u32
      omega
    · rw [if_neg he, if_neg (fun h => he (hiff.2 h)), hold]
      omega
  · simp only
    constructor
    · intro hd
      have : p.length = 0 ∧ t.depth = 0 := by split at hd <;> omega
      intro pc hpc
      rcases List.mem_append.1 hpc with h' | h'
      · exact inv.depth0.1 this.2 pc h'
      · simp at h'; subst h'; exact List.length_eq_zero_iff.1 this.1
    · intro hall
      have hp0 : p = [] := hall (p, c) (by simp)
      have : t.depth = 0 := inv.depth0.2 fun pc hpc => hall pc (by simp [hpc])
      simp [hp0, this]

theorem trieInv_new (voc : List Bytes) : TrieInv voc [] newCountTrie := by
  refine ⟨⟨by simp [newCountTrie], by simp [newCountTrie], by simp [newCountTrie]⟩, by simp [newCountTrie],
    rfl, by simp, ?_, by simp [newCountTrie]⟩
  intro ids _
  simp [newCountTrie, den_fresh, totalCount]

theorem trieInv_after {voc : List Bytes} (hvs : voc.length < 2 ^ 32) (h : List (List Bytes × Nat))
    (hv : ∀ pc ∈ h, ∀ w ∈ pc.1, w ∈ voc) : TrieInv voc h (afterPuts h) := by
  have key : ∀ (done rest : List (List Bytes × Nat)) (t : CountTrie), (∀ pc ∈ rest, ∀ w ∈ pc.1, w ∈ voc) →
      TrieInv voc done t → TrieInv voc (done ++ rest) (rest.foldl (fun t pc => t.put pc.1 pc.2) t) := by
    intro done rest
    induction rest generalizing done with
    | nil => intro t _ inv; simpa using inv
    | cons pc rest ih =>
      intro t hr inv
      have := trieInv_put hvs inv pc.1 pc.2 (hr pc (by simp))
      have := ih (done ++ [pc]) (t.put pc.1 pc.2) (fun x hx => hr x (by simp [hx])) this
      simpa using this
  exact key [] h newCountTrie hv (trieInv_new voc)

/-! ### Walk -/

/-- The calls Walk makes. -/
def collect (holder : List Bytes) (ord : List Bytes → List (Nat × CTNode) → List (Nat × CTNode)) :
    Nat → CTNode → List Bytes → List (List Bytes × Nat)
  | 0, n, path => if n.count > 0 then [(path, n.count)] else []
  | room + 1, n, path => (if n.count > 0 then [(path, n.count)] else []) ++
      (ord path n.children).flatMap fun wc => collect holder ord room wc.2 (path ++ [tokAt holder wc.1])

theorem mapFrom_ok {t : TokenTable} (ht : TInv t) {i : Nat} (hi : i < t.holder.length) :
    t.mapFrom i = .ok (tokAt t.holder i) := by
  unfold TokenTable.mapFrom
  have hu : u32 t.holder.length = t.holder.length := Nat.mod_eq_of_lt ht.size
  rw [hu, if_neg (by omega), List.getElem?_eq_getElem hi]
  simp [tokAt, List.getD_eq_getElem?_getD, List.getElem?_eq_getElem hi]

theorem iterateNode_eq {σ : Type} {t : TokenTable} (ht : TInv t)
    {ord : List Bytes → List (Nat × CTNode) → List (Nat × CTNode)} (ho : ∀ p l, (ord p l).Perm l)
    (walker : σ → List Bytes → Nat → Except Err σ) (room : Nat) (n : CTNode) (path : List Bytes) (s : σ)
    (h : WF t.holder.length room n) :
    iterateNode t ord walker room n path s =
      foldE (fun s pc => walker s pc.1 pc.2) s (collect t.holder ord room n path) := by
  induction room generalizing n path s with
  | zero =>
    have h : n.children = [] := h
    have hol : ord path n.children = [] := by
      have := ho path n.children
      rw [h] at this ⊢
      exact this.eq_nil
    simp only [iterateNode, collect, hol]
    by_cases hc : n.count > 0
    · simp only [hc, if_true, foldE]
    · simp only [hc, if_false, foldE]
  | succ room ih =>
    simp only [iterateNode, collect]
    rw [foldE_append]
    have hvisit : foldE (fun s (pc : List Bytes × Nat) => walker s pc.1 pc.2) s
        (if n.count > 0 then [(path, n.count)] else []) = (if n.count > 0 then walker s path n.count else .ok s) := by
      by_cases hc : n.count > 0
      · simp only [hc, if_true, foldE]
        cases walker s path n.count <;> rfl
      · simp only [hc, if_false, foldE]
    rw [hvisit]
    cases (if n.count > 0 then walker s path n.count else .ok s) with
    | error e => rfl
    | ok s' =>
      simp only
      rw [foldE_flatMap]
      apply foldE_congr
      intro wc hwc s''
      obtain ⟨h1, h2⟩ := h.2 wc ((ho path n.children).mem_iff.1 hwc)
      rw [mapFrom_ok ht h1]
      exact ih wc.2 _ s'' h2

theorem mem_collect {holder : List Bytes} {ord : List Bytes → List (Nat × CTNode) → List (Nat × CTNode)}
    (ho : ∀ p l, (ord p l).Perm l) (room : Nat) (n : CTNode) (path : List Bytes) (h : WF holder.length room n)
    (p : List Bytes) (c : Nat) : (p, c) ∈ collect holder ord room n path ↔
      ∃ ids, p = path ++ ids.map (tokAt holder) ∧ c = den n ids ∧ c ≠ 0 := by
  induction room generalizing n path p c with
  | zero =>
    have h : n.children = [] := h
    simp only [collect]
    constructor
    · intro hm
      split at hm
      · rename_i hc
        simp at hm
        exact ⟨[], by simp [hm.1], hm.2, by omega⟩
      · cases hm
    · rintro ⟨ids, rfl, rfl, hne⟩
      cases ids with
      | nil =>
        have : n.count > 0 := by simp only [den] at hne; omega
        simp [this, den]
      | cons i is => simp [den, child, h] at hne
  | succ room ih =>
    simp only [collect, List.mem_append, List.mem_flatMap]
    constructor
    · rintro (hm | ⟨wc, hwc, hm⟩)
      · split at hm
        · rename_i hc
          simp at hm
          exact ⟨[], by simp [hm.1], hm.2, by omega⟩
        · cases hm
      · have hmem := (ho path n.children).mem_iff.1 hwc
        obtain ⟨ids, h1, h2, h3⟩ := (ih wc.2 _ (h.2 wc hmem).2 p c).1 hm
        refine ⟨wc.1 :: ids, by simp [h1], ?_, h3⟩
        simp only [den, child_of_mem h.1 (show (wc.1, wc.2) ∈ n.children from hmem), h2]
    · rintro ⟨ids, rfl, rfl, hne⟩
      cases ids with
      | nil =>
        have : n.count > 0 := by simp only [den] at hne; omega
        left; simp [this, den]
      | cons i is =>
        right
        simp only [den] at hne ⊢
        cases hc : child n.children i with
        | none => simp [hc] at hne
        | some d =>
          rw [hc] at hne
          simp only at hne ⊢
          have hmem := mem_of_child hc
          refine ⟨(i, d), (ho path n.children).mem_iff.2 hmem, ?_⟩
          exact (ih d _ (h.2 _ hmem).2 _ _).2 ⟨is, by simp, rfl, hne⟩

theorem nodup_collect {holder : List Bytes} (hn : holder.Nodup)
    {ord : List Bytes → List (Nat × CTNode) → List (Nat × CTNode)} (ho : ∀ p l, (ord p l).Perm l) (room : Nat) (n : CTNode)
    (path : List Bytes) (h : WF holder.length room n) : ((collect holder ord room n path).map Prod.fst).Nodup := by
  induction room generalizing n path with
  | zero => simp only [collect]; split <;> simp
  | succ room ih =>
    simp only [collect]
    rw [List.map_append, List.nodup_append]
    refine ⟨by split <;> simp, ?_, ?_⟩
    · rw [List.map_flatMap, List.nodup_flatMap]
      refine ⟨fun wc hwc => ih wc.2 _ (h.2 wc ((ho path n.children).mem_iff.1 hwc)).2, ?_⟩
      have hk : ((ord path n.children).map Prod.fst).Nodup := ((ho path n.children).map Prod.fst).nodup_iff.2 h.1
      have hp : (ord path n.children).Pairwise fun a b => a.1 ≠ b.1 := by
        have := List.pairwise_map.1 hk
        exact this
      have hp' := hp.imp_of_mem (S := fun a b => List.Disjoint
          ((collect holder ord room a.2 (path ++ [tokAt holder a.1])).map Prod.fst)
          ((collect holder ord room b.2 (path ++ [tokAt holder b.1])).map Prod.fst)) ?_
      · exact hp'
      · intro a b ha hb hab q hqa hqb
        obtain ⟨⟨p1, c1⟩, hm1, rfl⟩ := List.mem_map.1 hqa
        obtain ⟨⟨p2, c2⟩, hm2, he⟩ := List.mem_map.1 hqb
        simp only at he
        have ham := h.2 a ((ho path n.children).mem_iff.1 ha)
        have hbm := h.2 b ((ho path n.children).mem_iff.1 hb)
        obtain ⟨ids1, e1, _, _⟩ := (mem_collect ho room a.2 _ ham.2 p1 c1).1 hm1
        obtain ⟨ids2, e2, _, _⟩ := (mem_collect ho room b.2 _ hbm.2 p2 c2).1 hm2
        rw [e1, e2] at he
        simp only [List.append_assoc, List.append_cancel_left_eq, List.singleton_append, List.cons.injEq] at he
        apply hab
        have := tokAt_inj hn (a := [a.1]) (b := [b.1]) (by simpa using ham.1) (by simpa using hbm.1) (by simpa using he.1.symm)
        simpa using this
    · intro q hq r hr hqr
      subst hqr
      obtain ⟨⟨p, c⟩, hm, rfl⟩ := List.mem_map.1 hr
      simp only at hq
      obtain ⟨wc, hwc, hm⟩ := List.mem_flatMap.1 hm
      have hwm := h.2 wc ((ho path n.children).mem_iff.1 hwc)
      obtain ⟨ids, e1, _, _⟩ := (mem_collect ho room wc.2 _ hwm.2 p c).1 hm
      obtain ⟨⟨p', c'⟩, hm', he⟩ := List.mem_map.1 hq
      split at hm'
      · simp at hm'
        simp only at he
        rw [hm'.1, e1] at he
        have := congrArg List.length he
        simp at this
      · cases hm'

theorem walk_eq {voc : List Bytes} {h : List (List Bytes × Nat)} {t : CountTrie} (inv : TrieInv voc h t)
    {ord : List Bytes → List (Nat × CTNode) → List (Nat × CTNode)} (ho : ∀ p l, (ord p l).Perm l) :
    ∃ calls : List (List Bytes × Nat), (∀ (σ : Type) (walker : σ → List Bytes → Nat → Except Err σ) (s : σ),
        t.walk ord walker s = foldE (fun s pc => walker s pc.1 pc.2) s calls) ∧
      (calls.map Prod.fst).Nodup ∧
      ∀ p c, (p, c) ∈ calls ↔ (∃ q ∈ h, q.1 ≠ []) ∧ c = totalCount h p % 2 ^ 32 ∧ c ≠ 0 := by
  by_cases hd : t.depth = 0
  · refine ⟨[], ?_, by simp, ?_⟩
    · intro σ walker s; simp [CountTrie.walk, hd, foldE]
    · intro p c
      simp only [List.not_mem_nil, false_iff, not_and]
      rintro ⟨q, hq, hne⟩
      exact absurd (inv.depth0.1 hd q hq) hne
  · refine ⟨collect t.tokens.holder ord t.depth t.root [], ?_, nodup_collect inv.tok.nodup ho _ _ _ inv.wf, ?_⟩
    · intro σ walker s
      simp only [CountTrie.walk, hd, if_false]
      exact iterateNode_eq inv.tok ho walker _ _ _ _ inv.wf
    · intro p c
      have hex : ∃ q ∈ h, q.1 ≠ [] := by
        by_contra hc
        push Not at hc
        exact hd (inv.depth0.2 hc)
      rw [mem_collect ho _ _ _ inv.wf]
      simp only [List.nil_append]
      constructor
      · rintro ⟨ids, rfl, rfl, hne⟩
        exact ⟨hex, inv.den ids (den_out inv.wf hne).2, hne⟩
      · rintro ⟨_, rfl, hne⟩
        have hin : ∀ w ∈ p, w ∈ t.tokens.holder := by
          intro w hw
          by_contra hc
          apply hne
          rw [totalCount_eq_zero]
          intro pc hpc he
          subst he
          exact hc (inv.have_ pc hpc w hw)
        have : ∃ ids : List Nat, (∀ i ∈ ids, i < t.tokens.holder.length) ∧ ids.map (tokAt t.tokens.holder) = p := by
          clear hne
          induction p with
          | nil => exact ⟨[], by simp, rfl⟩
          | cons w p ih =>
            obtain ⟨ids, h1, h2⟩ := ih fun x hx => hin x (by simp [hx])
            obtain ⟨i, hi⟩ := List.getElem?_of_mem (hin w (by simp))
            have hil : i < t.tokens.holder.length := by
              by_contra hc; rw [List.getElem?_eq_none (by omega)] at hi; cases hi
            refine ⟨i :: ids, ?_, ?_⟩
            · intro j hj
              rcases List.mem_cons.1 hj with h' | h'
              · subst h'; exact hil
              · exact h1 j h'
            · rw [List.map_cons, h2]
              simp [tokAt, List.getD_eq_getElem?_getD, hi]
        obtain ⟨ids, h1, h2⟩ := this
        refine ⟨ids, h2.symm, ?_, hne⟩
        rw [inv.den ids h1, h2]

end Verif
