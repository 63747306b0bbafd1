import Verif.Proofs.PackedArray
import Verif.Proofs.CountTrie
/- Proofs about the vector builder: what a built vector answers. -/
namespace Verif
open Spec (totalCount)

/-- Nodes as the tree delivers them. -/
structure SortedNodes (nodes : List NGramNode) : Prop where
  sorted : nodes.Pairwise fun a b => a.1 < b.1
  small : ∀ n ∈ nodes, n.1 < 2 ^ 64 ∧ n.2 < 2 ^ 32

def groupCons (n : NGramNode) : List Grp → List Grp
  | [] => [(unpackLeft n.1, [(unpackRight n.1, n.2)])]
  | (x, l) :: G =>
    if x = unpackLeft n.1 then (x, (unpackRight n.1, n.2) :: l) :: G
    else (unpackLeft n.1, [(unpackRight n.1, n.2)]) :: (x, l) :: G

def groups (nodes : List NGramNode) : List Grp := nodes.foldr groupCons []

theorem groups_ok {nodes : List NGramNode} (h : SortedNodes nodes) : GoodGrps (groups nodes) ∧ allNodes (groups nodes) = nodes := by
  induction nodes with
  | nil => exact ⟨⟨by simp [groups], by simp [groups]⟩, rfl⟩
  | cons n nodes ih =>
    have hs := List.pairwise_cons.1 h.sorted
    obtain ⟨ihG, ihN⟩ := ih ⟨hs.2, fun x hx => h.small x (by simp [hx])⟩
    have hn := h.small n (by simp)
    have hcons : groups (n :: nodes) = groupCons n (groups nodes) := rfl
    -- every key of the groups is greater
    have hgt : ∀ g ∈ groups nodes, ∀ wc ∈ g.2, n.1 < pack g.1 wc.1 := by
      intro g hg wc hwc
      have : (pack g.1 wc.1, wc.2) ∈ allNodes (groups nodes) :=
        List.mem_flatMap.2 ⟨g, hg, List.mem_map.2 ⟨wc, hwc, rfl⟩⟩
      rw [ihN] at this
      exact hs.1 _ this
    have hsplit : n.1 = unpackLeft n.1 * 2 ^ 32 + unpackRight n.1 := by
      conv => lhs; rw [← pack_unpack hn.1]
      rw [pack_eq (unpackLeft_lt _) (unpackRight_lt _)]
    have hnew : GoodGrp (unpackLeft n.1, [(unpackRight n.1, n.2)]) :=
      ⟨unpackLeft_lt _, by simp, by simp, by simp; exact ⟨unpackRight_lt _, hn.2⟩⟩
    have hle : ∀ g ∈ groups nodes, unpackLeft n.1 ≤ g.1 := by
      intro g hg
      have gg := ihG.each g hg
      obtain ⟨wc, hwc⟩ := List.exists_mem_of_ne_nil _ gg.ne
      have h1 := hgt g hg wc hwc
      have h2 := gg.small wc hwc
      rw [pack_eq gg.ctx h2.1] at h1
      have := gg.ctx
      omega
    rw [hcons]
    cases hG : groups nodes with
    | nil =>
      rw [hG] at ihN
      refine ⟨⟨?_, by simp [groupCons]⟩, ?_⟩
      · intro g hg
        simp only [groupCons, List.mem_singleton] at hg
        subst hg; exact hnew
      · simp only [groupCons, allNodes, List.flatMap_cons, List.flatMap_nil, Grp.nodes, List.map_cons, List.map_nil, pack_unpack hn.1]
        rw [← ihN]
        rfl
    | cons g G =>
      obtain ⟨x, l⟩ := g
      rw [hG] at ihG ihN hle hgt
      have hsG := List.pairwise_cons.1 ihG.sorted
      simp only [groupCons]
      split
      · rename_i hx
        refine ⟨⟨?_, ?_⟩, ?_⟩
        · intro g hg
          rcases List.mem_cons.1 hg with h' | h'
          · subst h'
            have gg := ihG.each (x, l) (by simp)
            refine ⟨gg.ctx, by simp, ?_, ?_⟩
            · simp only [List.pairwise_cons]
              refine ⟨?_, gg.sorted⟩
              intro wc hwc
              have h1 := hgt (x, l) (by simp) wc hwc
              have h2 := gg.small wc hwc
              have h3 : x < 2 ^ 32 := gg.ctx
              simp only at h1
              rw [pack_eq h3 h2.1, hx] at h1
              omega
            · intro wc hwc
              rcases List.mem_cons.1 hwc with h'' | h''
              · subst h''; exact ⟨unpackRight_lt _, hn.2⟩
              · exact gg.small wc h''
          · exact ihG.each g (by simp [h'])
        · exact List.pairwise_cons.2 ⟨fun g hg => hsG.1 g hg, hsG.2⟩
        · simp only [allNodes, List.flatMap_cons, Grp.nodes, List.map_cons, List.cons_append] at ihN ⊢
          rw [ihN, hx, pack_unpack hn.1]
      · rename_i hx
        refine ⟨⟨?_, ?_⟩, ?_⟩
        · intro g hg
          rcases List.mem_cons.1 hg with h' | h'
          · subst h'; exact hnew
          · exact ihG.each g h'
        · refine List.pairwise_cons.2 ⟨?_, ihG.sorted⟩
          intro g hg
          have hx0 := hle (x, l) (by simp)
          simp only at hx0 ⊢
          rcases List.mem_cons.1 hg with h' | h'
          · subst h'; simp only; omega
          · have := hsG.1 g h'; simp only at this; omega
        · simp only [allNodes, List.flatMap_cons, Grp.nodes, List.map_cons, List.map_nil, List.cons_append,
            List.nil_append, pack_unpack hn.1] at ihN ⊢
          rw [ihN]

section
variable {nodes : List NGramNode} (h : SortedNodes nodes) (hl : nodes.length ≤ invalidContext)
include h hl

theorem createPackedArray_eq : createPackedArray nodes =
    ⟨contOf 0 (groups nodes), allVals (groups nodes), totalOf 0 nodes⟩ := by
  obtain ⟨hG, hN⟩ := groups_ok h
  unfold createPackedArray
  have hlen : grpOffs (groups nodes) (groups nodes).length = nodes.length := by rw [← allNodes_length, hN]
  have hinv : invalidContext = 4294967293 := by decide
  have := createLoop_eq (groups nodes) hG ⟨[], [], 0⟩ invalidContext 0 (fun g _ => .inr rfl) (by omega)
  rw [hN] at this
  rw [this]
  simp

theorem vector_at {k w ctx c : Nat} (hw : w < 2 ^ 32) (hctx : ctx < 2 ^ 32) (hk : nodes[k]? = some (pack ctx w, c)) :
    (createPackedArray nodes).getCount w ctx = .ok (c, k) := by
  obtain ⟨hG, hN⟩ := groups_ok h
  rw [createPackedArray_eq h hl]
  apply getCount_at hG (by rw [← allNodes_length, hN]; exact hl) hw hctx
  rw [hN]; exact hk

theorem vector_absent {w ctx : Nat} (ha : ∀ n ∈ nodes, n.1 ≠ pack ctx w) :
    (createPackedArray nodes).getCount w ctx = .ok (0, invalidContext) := by
  obtain ⟨hG, hN⟩ := groups_ok h
  rw [createPackedArray_eq h hl]
  apply getCount_absent hG (by rw [← allNodes_length, hN]; exact hl)
  rw [hN]; exact ha

theorem vector_sub_some {ctx w c : Nat} (hw : w < 2 ^ 32) (hctx : ctx < 2 ^ 32) (hm : (pack ctx w, c) ∈ nodes) :
    ∃ sub, (createPackedArray nodes).subVector ctx = some sub ∧
      ∀ w', sub.getCount w' ctx = (createPackedArray nodes).getCount w' ctx := by
  obtain ⟨hG, hN⟩ := groups_ok h
  rw [createPackedArray_eq h hl]
  have hb : grpOffs (groups nodes) (groups nodes).length ≤ invalidContext := by rw [← allNodes_length, hN]; exact hl
  rw [← hN] at hm
  obtain ⟨k, hk⟩ := List.getElem?_of_mem hm
  obtain ⟨i, j, g, wc, h1, h2, h3, h4⟩ := get_cases hk
  have hg := hG.each g (List.mem_of_getElem? h1)
  have hwc := hg.small wc (List.mem_of_getElem? h2)
  injection h4 with h4 h5
  obtain ⟨e1, e2⟩ := pack_inj hctx hw hg.ctx hwc.1 h4
  subst e1
  exact subVector_some hG hb h1

theorem vector_sub_none {ctx : Nat} (hm : ∀ w c, w < 2 ^ 32 → (pack ctx w, c) ∉ nodes) :
    (createPackedArray nodes).subVector ctx = none := by
  obtain ⟨hG, hN⟩ := groups_ok h
  rw [createPackedArray_eq h hl]
  apply subVector_none hG (by rw [← allNodes_length, hN]; exact hl)
  intro g hg he
  have gg := hG.each g hg
  obtain ⟨wc, hwc⟩ := List.exists_mem_of_ne_nil _ gg.ne
  apply hm wc.1 wc.2 (gg.small wc hwc).1
  rw [← hN, ← he]
  exact List.mem_flatMap.2 ⟨g, hg, List.mem_map.2 ⟨wc, hwc, rfl⟩⟩

end

theorem getContextOffset_eq {s : PackedArray} {w ctx c i : Nat} (h : s.getCount w ctx = .ok (c, i)) :
    s.getContextOffset w ctx = .ok i := by
  unfold PackedArray.getCount at h
  unfold PackedArray.getContextOffset
  cases hf : s.find w ctx with
  | error e => rw [hf] at h; cases h
  | ok r =>
    obtain ⟨v, j⟩ := r
    rw [hf] at h
    simp only at h ⊢
    split at h
    · rename_i he
      injection h with h; injection h with _ h
      rw [← h, he]
    · injection h with h; injection h with _ h
      rw [h]

/-! ### the tree -/

theorem mem_treePut {t : List NGramNode} (h : t.Pairwise fun a b => a.1 < b.1) (k c q d : Nat) :
    (q, d) ∈ treePut k c t ↔ (q ≠ k ∧ (q, d) ∈ t) ∨
      (q = k ∧ ((∃ c0, (k, c0) ∈ t ∧ d = u32 (c0 + c)) ∨ ((∀ c0, (k, c0) ∉ t) ∧ d = c))) := by
  induction t with
  | nil => simp [treePut]
  | cons x t ih =>
    obtain ⟨k', c'⟩ := x
    have hs := List.pairwise_cons.1 h
    have ih := ih hs.2
    simp only [treePut]
    split
    · rename_i hlt
      have hnot : ∀ c0, (k, c0) ∉ (k', c') :: t := by
        intro c0 hm
        rcases List.mem_cons.1 hm with h' | h'
        · injection h' with h1 _; omega
        · have := hs.1 _ h'; simp only at this; omega
      constructor
      · intro hm
        rcases List.mem_cons.1 hm with h' | h'
        · injection h' with h1 h2
          exact .inr ⟨h1, .inr ⟨hnot, h2⟩⟩
        · refine .inl ⟨?_, h'⟩
          rintro rfl
          exact hnot d h'
      · rintro (⟨_, h2⟩ | ⟨h1, ⟨c0, h2, _⟩ | ⟨_, h3⟩⟩)
        · exact List.mem_cons_of_mem _ h2
        · exact absurd h2 (hnot c0)
        · rw [h1, h3]; simp
    · split
      · rename_i hlt heq
        subst heq
        have hnot : ∀ c0, (k, c0) ∉ t := by
          intro c0 hm
          have := hs.1 _ hm; simp only at this; omega
        constructor
        · intro hm
          rcases List.mem_cons.1 hm with h' | h'
          · injection h' with h1 h2
            exact .inr ⟨h1, .inl ⟨c', by simp, h2⟩⟩
          · refine .inl ⟨?_, by simp [h']⟩
            rintro rfl
            exact hnot d h'
        · rintro (⟨h1, h2⟩ | ⟨h1, ⟨c0, h2, h3⟩ | ⟨h2, _⟩⟩)
          · rcases List.mem_cons.1 h2 with h' | h'
            · injection h' with h' _; exact absurd h' h1
            · exact List.mem_cons_of_mem _ h'
          · rcases List.mem_cons.1 h2 with h' | h'
            · injection h' with _ h'; rw [h1, h3, h']; simp
            · exact absurd h' (hnot c0)
          · exact absurd (by simp) (h2 c')
      · rename_i hlt hne
        have hne' : k' ≠ k := fun h => hne h.symm
        rw [List.mem_cons, ih]
        constructor
        · rintro (h' | ⟨h1, h2⟩ | ⟨h1, ⟨c0, h2, h3⟩ | ⟨h2, h3⟩⟩)
          · injection h' with h1 h2
            subst h1 h2
            exact .inl ⟨hne', by simp⟩
          · exact .inl ⟨h1, by simp [h2]⟩
          · exact .inr ⟨h1, .inl ⟨c0, by simp [h2], h3⟩⟩
          · refine .inr ⟨h1, .inr ⟨?_, h3⟩⟩
            intro c0 hm
            rcases List.mem_cons.1 hm with h' | h'
            · injection h' with h' _; exact hne h'
            · exact h2 c0 h'
        · rintro (⟨h1, h2⟩ | ⟨h1, ⟨c0, h2, h3⟩ | ⟨h2, h3⟩⟩)
          · rcases List.mem_cons.1 h2 with h' | h'
            · exact .inl h'
            · exact .inr (.inl ⟨h1, h'⟩)
          · rcases List.mem_cons.1 h2 with h' | h'
            · injection h' with h' _; exact absurd h' hne
            · exact .inr (.inr ⟨h1, .inl ⟨c0, h', h3⟩⟩)
          · exact .inr (.inr ⟨h1, .inr ⟨fun c0 hm => h2 c0 (by simp [hm]), h3⟩⟩)

theorem sorted_treePut {t : List NGramNode} (h : SortedNodes t) {k c : Nat} (hk : k < 2 ^ 64) (hc : c < 2 ^ 32) :
    SortedNodes (treePut k c t) := by
  refine ⟨?_, ?_⟩
  · have hs := h.sorted
    clear h
    induction t with
    | nil => simp [treePut]
    | cons x t ih =>
      obtain ⟨k', c'⟩ := x
      have hs' := List.pairwise_cons.1 hs
      simp only [treePut]
      split
      · rename_i hlt
        refine List.pairwise_cons.2 ⟨?_, hs⟩
        intro y hy
        rcases List.mem_cons.1 hy with h' | h'
        · subst h'; exact hlt
        · have := hs'.1 y h'; simp only at this ⊢; omega
      · split
        · rename_i hlt heq
          refine List.pairwise_cons.2 ⟨?_, hs'.2⟩
          intro y hy
          exact hs'.1 y hy
        · rename_i hlt hne
          refine List.pairwise_cons.2 ⟨?_, ih hs'.2⟩
          rintro ⟨q, d⟩ hy
          rcases (mem_treePut hs'.2 k c q d).1 hy with ⟨_, h2⟩ | ⟨h1, _⟩
          · exact hs'.1 _ h2
          · simp only; omega
  · rintro ⟨q, d⟩ hm
    rcases (mem_treePut h.sorted k c q d).1 hm with ⟨_, h2⟩ | ⟨h1, ⟨c0, _, h3⟩ | ⟨_, h3⟩⟩
    · exact h.small _ h2
    · exact ⟨by simp only; omega, by simp only [h3]; exact Nat.mod_lt _ (by decide)⟩
    · exact ⟨by simp only; omega, by simp only; omega⟩

/-- The sum of the counts of the entries with a key. -/
def keyTotal (entries : List (Nat × Nat)) (q : Nat) : Nat := ((entries.filter fun e => e.1 == q).map Prod.snd).sum

/-- The tree after putting entries (key, count). -/
structure TreeInv (entries : List (Nat × Nat)) (t : List NGramNode) : Prop where
  sorted : SortedNodes t
  mem : ∀ q d, (q, d) ∈ t ↔ (∃ e ∈ entries, e.1 = q) ∧ d = keyTotal entries q % 2 ^ 32
  len : t.length ≤ entries.length

theorem length_treePut (k c : Nat) (t : List NGramNode) : (treePut k c t).length ≤ t.length + 1 := by
  induction t with
  | nil => simp [treePut]
  | cons x t ih =>
    obtain ⟨k', c'⟩ := x
    simp only [treePut]
    split
    · simp
    · split
      · simp
      · simp only [List.length_cons]; omega

theorem keyTotal_append (es : List (Nat × Nat)) (k c q : Nat) :
    keyTotal (es ++ [(k, c)]) q = keyTotal es q + if q = k then c else 0 := by
  unfold keyTotal
  rw [List.filter_append, List.map_append, List.sum_append]
  by_cases hq : q = k
  · subst hq; simp
  · have : ¬ k = q := fun h => hq h.symm
    simp [hq, this]

theorem keyTotal_zero {es : List (Nat × Nat)} {q : Nat} (h : ∀ e ∈ es, e.1 ≠ q) : keyTotal es q = 0 := by
  unfold keyTotal
  rw [List.filter_eq_nil_iff.2]
  · rfl
  · intro e he; simpa using h e he

theorem treeInv_put {es : List (Nat × Nat)} {t : List NGramNode} (h : TreeInv es t) {k c : Nat} (hk : k < 2 ^ 64)
    (hc : c < 2 ^ 32) : TreeInv (es ++ [(k, c)]) (treePut k c t) := by
  refine ⟨sorted_treePut h.sorted hk hc, ?_, ?_⟩
  · intro q d
    rw [mem_treePut h.sorted.sorted, keyTotal_append]
    by_cases hq : q = k
    · subst hq
      have hex : ∃ e ∈ es ++ [(q, c)], e.1 = q := ⟨(q, c), by simp, rfl⟩
      simp only [ne_eq, not_true_eq_false, false_and, true_and, false_or, if_true, hex]
      constructor
      · rintro (⟨c0, h1, rfl⟩ | ⟨h1, rfl⟩)
        · rw [((h.mem q c0).1 h1).2]; unfold u32; omega
        · have : keyTotal es q = 0 := keyTotal_zero fun e he heq =>
            h1 (keyTotal es q % 2 ^ 32) ((h.mem q _).2 ⟨⟨e, he, heq⟩, rfl⟩)
          rw [this]; omega
      · rintro rfl
        by_cases hm : ∃ e ∈ es, e.1 = q
        · left
          refine ⟨_, (h.mem q _).2 ⟨hm, rfl⟩, ?_⟩
          unfold u32; omega
        · right
          refine ⟨fun c0 hc0 => hm ((h.mem q c0).1 hc0).1, ?_⟩
          rw [keyTotal_zero (fun e he heq => hm ⟨e, he, heq⟩)]; omega
    · have hex : (∃ e ∈ es ++ [(k, c)], e.1 = q) ↔ ∃ e ∈ es, e.1 = q := by
        constructor
        · rintro ⟨e, he, rfl⟩
          rcases List.mem_append.1 he with h' | h'
          · exact ⟨e, h', rfl⟩
          · simp at h'; subst h'; exact absurd rfl hq
        · rintro ⟨e, he, rfl⟩
          exact ⟨e, by simp [he], rfl⟩
      simp only [ne_eq, hq, not_false_eq_true, true_and, false_and, or_false, hex, if_false, Nat.add_zero]
      exact h.mem q d
  · have := length_treePut k c t
    have := h.len
    simp
    omega

end Verif
