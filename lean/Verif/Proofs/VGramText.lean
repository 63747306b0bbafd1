import Verif.Proofs.VGram
import Verif.Spec.VGram
import Mathlib.Data.List.Induction
import Mathlib.Data.Nat.Find
/- The frequency trie over texts (property C87). -/
namespace Verif.VGram
open Spec

/-- Where the code puts markers: the last character begins at byte `qMin - 1` or later. -/
def mkRunes (qMin : Nat) (p : List Nat) : Bool := decide (p ≠ []) && decide (qMin ≤ (p.dropLast.map runeLen).sum + 1)

theorem runeLen_sum (cs : List Char) : ((cs.map Char.toNat).map runeLen).sum = (utf8 cs).length := by
  induction cs with
  | nil => rfl
  | cons c cs ih =>
    simp only [List.map_cons, List.sum_cons, ih, runeLen_char, utf8, List.flatMap_cons, List.length_append]

theorem mkRunes_chars {qMin : Nat} {p : List Char} (hp : p ≠ []) :
    mkRunes qMin (p.map Char.toNat) = decide (qMin ≤ (utf8 p.dropLast).length + 1) := by
  unfold mkRunes
  rw [← List.map_dropLast, runeLen_sum]
  simp [hp]

theorem marksAgree_utf8 {qMin : Nat} : ∀ (cs p : List Char), (utf8 (p ++ cs)).length < 2 ^ 32 →
    MarksAgree (mkRunes qMin) qMin (p.map Char.toNat) (offsets (utf8 p).length (cs.map charPair))
  | [], _, _ => trivial
  | c :: cs, p, h => by
    have hl : (utf8 (p ++ c :: cs)).length = (utf8 p).length + ((String.utf8EncodeChar c).length + (utf8 cs).length) := by
      rw [utf8_append]; simp [utf8]
    have hc : 0 < (String.utf8EncodeChar c).length := List.length_pos_iff.2 (utf8EncodeChar_ne_nil c)
    have ih := marksAgree_utf8 (qMin := qMin) cs (p ++ [c]) (by simpa using h)
    have e : (utf8 (p ++ [c])).length = (utf8 p).length + (String.utf8EncodeChar c).length := by
      rw [utf8_append]; simp [utf8]
    rw [e] at ih
    refine ⟨?_, ?_⟩
    · show mkRunes qMin (p.map Char.toNat ++ [c.toNat]) = _
      have : p.map Char.toNat ++ [c.toNat] = (p ++ [c]).map Char.toNat := by simp
      rw [this, mkRunes_chars (by simp)]
      rw [List.dropLast_concat, u32_lt (by omega)]
    · have : p.map Char.toNat ++ [(charPair c).1] = (p ++ [c]).map Char.toNat := by simp [charPair]
      show MarksAgree _ _ (p.map Char.toNat ++ [(charPair c).1]) (offsets ((utf8 p).length + (charPair c).2.length) (cs.map charPair))
      rw [this]; exact ih

theorem offsets_snd (off : Nat) (l : List (Nat × Bytes)) : (offsets off l).map Prod.snd = l.map Prod.fst := by
  induction l generalizing off with
  | nil => rfl
  | cons x l ih => simp [offsets, ih]

theorem gramTrie_qMin (qMin : Nat) (gs : List (List Char)) : (gramTrie qMin gs).qMin = qMin := by
  unfold gramTrie
  suffices ∀ t : FTrie, (gs.foldl (fun t g => t.add (utf8 g)) t).qMin = t.qMin from this _
  induction gs with
  | nil => exact fun _ => rfl
  | cons g gs ih => exact fun t => ih _

theorem gramTrie_rep {qMin : Nat} (gs : List (List Char)) (hn : gs.length < 2 ^ 32) (hg : ∀ g ∈ gs, (utf8 g).length < 2 ^ 32) :
    GRep (mkRunes qMin) [] (gs.reverse.map (List.map Char.toNat)) (gramTrie qMin gs).root ∧
      Full (gs.reverse.map (List.map Char.toNat)) (gramTrie qMin gs).root := by
  induction gs using List.reverseRecOn with
  | nil =>
    refine ⟨.node (by simp) (by simp [mkRunes]) (by simp) (by simp) (by simp [sub]) (by simp), .node (by simp [sub]) (by simp)⟩
  | append_singleton gs g ih =>
    have hlen : gs.length + 1 < 2 ^ 32 := by simpa using hn
    obtain ⟨h1, h2⟩ := ih (by omega) (fun x hx => hg x (by simp [hx]))
    have e : (gramTrie qMin (gs ++ [g])).root = addPath qMin (gramTrie qMin gs).root (rangeText 0 (utf8 g)) := by
      have hq := gramTrie_qMin qMin gs
      have : gramTrie qMin (gs ++ [g]) = (gramTrie qMin gs).add (utf8 g) := by
        unfold gramTrie; rw [List.foldl_append]; rfl
      rw [this, FTrie.add, hq]
    rw [e, rangeText_eq, charsOf_utf8]
    generalize hr : (gramTrie qMin gs).root = root at h1 h2 ⊢
    cases h1 with
    | @node _ _ freq marker cs g1 g2 g3 g4 g5 g6 =>
      cases h2 with
      | node k1 k2 =>
        have := addPath_spec (mk := mkRunes qMin) (qMin := qMin) (offsets 0 (g.map charPair)) (p := [])
          (gs := gs.reverse.map (List.map Char.toNat)) (freq := freq) (cs := cs) (by simp) g3 g4 k1
          (fun c n h => ⟨g6 c n h, k2 c n h⟩) (marksAgree_utf8 g [] (by simpa using hg g (by simp))) (by simpa using hlen)
        have hm : marker = if mkRunes qMin [] then some (((gs.reverse.map (List.map Char.toNat)).count [])) else none := by
          rw [g2]; simp [mkRunes]
        rw [hm]
        have hl : (gs ++ [g]).reverse.map (List.map Char.toNat) =
            (offsets 0 (g.map charPair)).map Prod.snd :: gs.reverse.map (List.map Char.toNat) := by
          rw [offsets_snd]; simp [charPair, Function.comp_def]
        rw [hl]
        exact this

theorem toNat_injective : Function.Injective Char.toNat := fun _ _ h => Char.toNat_inj.1 h

theorem map_prefix {p g : List Char} : p.map Char.toNat <+: g.map Char.toNat ↔ p <+: g := by
  constructor
  · intro h
    rw [List.prefix_iff_eq_take] at h ⊢
    rw [List.length_map, ← List.map_take] at h
    exact List.map_injective_iff.2 toNat_injective h
  · exact fun h => h.map _

theorem find_utf8 (t : FTrie) (p : List Char) : t.find (utf8 p) = .pointer (findPath t.root (p.map Char.toNat)) := by
  rw [FTrie.find, runesOf_utf8]

theorem count_runes (gs : List (List Char)) (f : List Nat → Bool) :
    (gs.reverse.map (List.map Char.toNat)).countP f = gs.countP (fun g => f (g.map Char.toNat)) := by
  rw [List.countP_map, List.countP_reverse]; rfl

theorem mkRunes_nonempty {qMin : Nat} {p : List Nat} (h : mkRunes qMin p = true) : p ≠ [] := by
  intro e; subst e; simp [mkRunes] at h

variable {qMin : Nat} {gs : List (List Char)}

theorem history_rep (hn : gs.length < 2 ^ 32) (hg : ∀ g ∈ gs, (utf8 g).length < 2 ^ 32) {t : FTrie} (h : GramHistory qMin gs t) :
    GRep (mkRunes qMin) [] (gs.reverse.map (List.map Char.toNat)) t.root := by
  induction h with
  | built => exact (gramTrie_rep gs hn hg).1
  | pruned _ hp ih => exact (prune_spec ih (by simpa using hn) mkRunes_nonempty hp.1).1

theorem inTrie_iff {t : FTrie} {p : List Char} : InTrie t p ↔ ∃ n, findPath t.root (p.map Char.toNat) = some n := by
  unfold InTrie
  rw [find_utf8]
  constructor
  · rintro ⟨n, h⟩; exact ⟨n, by injection h⟩
  · rintro ⟨n, h⟩; exact ⟨n, by rw [h]⟩

theorem prefix_chars {q : List Nat} {g : List Char} (h : q <+: g.map Char.toNat) : ∃ p, p <+: g ∧ q = p.map Char.toNat := by
  rw [List.prefix_iff_eq_take] at h
  exact ⟨g.take q.length, List.take_prefix _ _, by rw [← List.map_take] at h; exact h⟩

/-- The paths of the trie are texts. -/
theorem path_chars (hn : gs.length < 2 ^ 32) (hg : ∀ g ∈ gs, (utf8 g).length < 2 ^ 32) {t : FTrie} (h : GramHistory qMin gs t)
    {q : List Nat} {x : FNode} (hx : findPath t.root q = some x) : ∃ p : List Char, q = p.map Char.toNat := by
  by_cases hq : q = []
  · exact ⟨[], hq⟩
  · have hs := subs_ne_nil_of_find q hq (history_rep hn hg h) hx
    have hl : 0 < (subs q (gs.reverse.map (List.map Char.toNat))).length := List.length_pos_iff.2 hs
    rw [length_subs, List.countP_pos_iff] at hl
    obtain ⟨g, hgm, hpre⟩ := hl
    obtain ⟨g', _, rfl⟩ := List.mem_map.1 hgm
    obtain ⟨p, _, e⟩ := prefix_chars (of_decide_eq_true hpre)
    exact ⟨p, e⟩

theorem grep_first {mk : List Nat → Bool} : ∀ (r : List Nat) {p gs n g}, GRep mk p gs n → g ∈ gs → r <+: g →
    (∀ s, s <+: r → s ≠ r → mk (p ++ s) = false) → ∃ x, findPath n r = some x
  | [], p, gs, n, g, _, _, _, _ => ⟨n, rfl⟩
  | c :: r, p, gs, n, g, h, hgm, hr, hm => by
    cases h with
    | node g1 g2 g3 g4 g5 g6 =>
      obtain ⟨u, rfl⟩ := hr
      have hmem : r ++ u ∈ sub c gs := mem_sub.2 hgm
      have hk := g5 (by simpa using hm [] (List.nil_prefix) (by simp)) c (List.ne_nil_of_mem hmem)
      simp only [findPath, FNode.children]
      split
      · rename_i hn; exact absurd hk (child_none.1 hn)
      · rename_i ch hch
        exact grep_first r (g6 c ch (mem_of_child hch)) hmem ⟨u, rfl⟩ fun s hs hne => by
          have := hm (c :: s) (List.cons_prefix_cons.2 ⟨rfl, hs⟩) (by simpa using hne)
          simpa using this

open Classical in
theorem history_find (hn : gs.length < 2 ^ 32) (hg : ∀ g ∈ gs, (utf8 g).length < 2 ^ 32) {t : FTrie} (h : GramHistory qMin gs t)
    {p : List Char} (hp : p ≠ []) {n : FNode} (hf : t.find (utf8 p) = .pointer (some n)) :
    n.frequency = begins gs p ∧ n.marker = if qMin ≤ (utf8 p.dropLast).length + 1 then
      some (gs.countP fun g => decide (Longest (InTrie t) p g)) else none := by
  rw [find_utf8] at hf
  have hf : findPath t.root (p.map Char.toNat) = some n := by injection hf
  have hr := findPath_grep _ (history_rep hn hg h) hf
  rw [List.nil_append] at hr
  have hmk := mkRunes_chars (qMin := qMin) hp
  have hlen : (subs (p.map Char.toNat) (gs.reverse.map (List.map Char.toNat))).length = begins gs p := by
    rw [length_subs, count_runes]
    unfold begins
    congr 1; funext g
    exact decide_eq_decide.2 map_prefix
  generalize hx : n = n0 at hr
  cases hr with
  | @node _ _ freq marker cs g1 g2 g3 g4 g5 g6 =>
    subst hx
    refine ⟨by rw [← hlen]; exact g1 (by simpa using hp), ?_⟩
    show marker = _
    rw [g2, hmk]
    have hc : (subs (p.map Char.toNat) (gs.reverse.map (List.map Char.toNat))).countP (stays (cs.map Prod.fst)) =
        gs.countP fun g => decide (Longest (InTrie t) p g) := by
      rw [countP_subs, count_runes]
      refine List.countP_congr fun g _ => ?_
      simp only [Bool.and_eq_true, decide_eq_true_eq]
      constructor
      · rintro ⟨h1, h2⟩
        have := (stays_iff_longest hf h1).1 h2
        refine ⟨map_prefix.1 h1, inTrie_iff.2 ⟨_, hf⟩, fun q hq hi => ?_⟩
        simpa using this (q.map Char.toNat) (map_prefix.2 hq) (inTrie_iff.1 hi)
      · rintro ⟨h1, _, h3⟩
        refine ⟨map_prefix.2 h1, (stays_iff_longest hf (map_prefix.2 h1)).2 fun q hq hi => ?_⟩
        obtain ⟨q', hq', rfl⟩ := prefix_chars hq
        simpa using h3 q' hq' (inTrie_iff.2 hi)
    by_cases hm : qMin ≤ (utf8 p.dropLast).length + 1
    · rw [if_pos hm, if_pos (by simpa using hm), hc]
    · rw [if_neg hm, if_neg (by simpa using hm)]

theorem utf8_length_mono {p q : List Char} (h : p <+: q) : (utf8 p).length ≤ (utf8 q).length := by
  obtain ⟨r, rfl⟩ := h
  rw [utf8_append]; simp

theorem dropLast_prefix_of {p q : List Char} (h : p <+: q) : p.dropLast <+: q.dropLast := by
  obtain ⟨r, rfl⟩ := h
  rcases List.eq_nil_or_concat' r with rfl | ⟨r', x, rfl⟩
  · simp
  · rw [← List.append_assoc, List.dropLast_concat]
    exact (List.dropLast_prefix p).trans (List.prefix_append _ _)

/-- Every gram that is long enough has a marked beginning in the trie. -/
theorem history_kept (hn : gs.length < 2 ^ 32) (hg : ∀ g ∈ gs, (utf8 g).length < 2 ^ 32) {t : FTrie} (h : GramHistory qMin gs t)
    {g : List Char} (hgm : g ∈ gs) (hne : g ≠ []) (hq : qMin ≤ (utf8 g.dropLast).length + 1) :
    ∃ p, p ≠ [] ∧ qMin ≤ (utf8 p.dropLast).length + 1 ∧ Longest (InTrie t) p g := by
  classical
  -- the first marked beginning
  have hex : ∃ k, 0 < k ∧ k ≤ g.length ∧ qMin ≤ (utf8 (g.take k).dropLast).length + 1 :=
    ⟨g.length, List.length_pos_iff.2 hne, Nat.le_refl _, by rwa [List.take_length]⟩
  let k := Nat.find hex
  obtain ⟨k1, k2, k3⟩ := Nat.find_spec hex
  have hfirst : InTrie t (g.take k) := by
    refine inTrie_iff.2 (grep_first _ (history_rep hn hg h) (g := g.map Char.toNat) ?_ ?_ ?_)
    · exact List.mem_map.2 ⟨g, by simpa using hgm, rfl⟩
    · exact map_prefix.2 (List.take_prefix _ _)
    · intro s hs hne'
      obtain ⟨s', hs', rfl⟩ := prefix_chars hs
      rw [List.nil_append]
      by_cases he : s' = []
      · subst he; rfl
      · rw [mkRunes_chars he]
        have hlt : s'.length < k := by
          have := hs'.length_le
          rw [List.length_take, Nat.min_eq_left k2] at this
          rcases Nat.lt_or_eq_of_le this with h | h
          · exact h
          · exact absurd (by rw [hs'.eq_of_length (by rw [List.length_take, Nat.min_eq_left k2]; exact h)]) hne'
        have hs2 : s' = g.take s'.length := List.prefix_iff_eq_take.1 (hs'.trans (List.take_prefix _ _))
        have := Nat.find_min hex hlt
        by_contra hc
        have hc : qMin ≤ (utf8 s'.dropLast).length + 1 := by simpa using hc
        refine this ⟨List.length_pos_iff.2 he, by omega, ?_⟩
        rw [← hs2]; exact hc
  -- the longest one
  have hP : ∃ j, j ≤ g.length ∧ k ≤ j ∧ InTrie t (g.take j) := ⟨k, k2, Nat.le_refl _, hfirst⟩
  let j := Nat.findGreatest (fun j => k ≤ j ∧ InTrie t (g.take j)) g.length
  have hj := Nat.findGreatest_spec (P := fun j => k ≤ j ∧ InTrie t (g.take j)) k2 ⟨Nat.le_refl _, hfirst⟩
  have hjl : j ≤ g.length := Nat.findGreatest_le _
  have hjlen : (g.take j).length = j := by rw [List.length_take, Nat.min_eq_left hjl]
  refine ⟨g.take j, ?_, ?_, List.take_prefix _ _, hj.2, fun q hqg hqt => ?_⟩
  · intro e
    rw [e] at hjlen
    have hkj : k ≤ j := hj.1
    simp at hjlen
    omega
  · have : g.take k <+: g.take j := by
      rw [List.prefix_take_iff]
      exact ⟨List.take_prefix _ _, by rw [List.length_take]; exact Nat.le_trans (Nat.min_le_left _ _) hj.1⟩
    have := utf8_length_mono (dropLast_prefix_of this)
    have k3' : qMin ≤ (utf8 (g.take k).dropLast).length + 1 := k3
    omega
  · rw [hjlen]
    by_contra hlt
    have hlt : j < q.length := Nat.lt_of_not_le hlt
    have hq2 : q = g.take q.length := List.prefix_iff_eq_take.1 hqg
    exact Nat.findGreatest_is_greatest hlt hqg.length_le ⟨Nat.le_trans hj.1 (Nat.le_of_lt hlt), by rw [← hq2]; exact hqt⟩

theorem encodeRunes_chars (p : List Char) : (p.map Char.toNat).flatMap encodeRune = utf8 p := by
  induction p with
  | nil => rfl
  | cons c p ih => simp only [List.map_cons, List.flatMap_cons, ih, encodeRune_char, utf8]

/-- What `Walk` calls. -/
theorem history_walk (hn : gs.length < 2 ^ 32) (hg : ∀ g ∈ gs, (utf8 g).length < 2 ^ 32) {t : FTrie} (h : GramHistory qMin gs t)
    {calls : List (Bytes × FNode)} (hw : t.Walks calls) :
    ∃ ps : List (List Char × FNode), calls = ps.map (fun x => (utf8 x.1, x.2)) ∧ (ps.map Prod.fst).Nodup ∧
      ∀ p n, (p, n) ∈ ps ↔ p ≠ [] ∧ t.find (utf8 p) = .pointer (some n) := by
  obtain ⟨order, hperm, hwl⟩ := hw
  have hrep := history_rep hn hg h
  have hpc : ∀ q x, findPath t.root q = some x → ∃ p : List Char, q = p.map Char.toNat := fun q x => path_chars hn hg h
  generalize hroot : t.root = root at hrep hperm
  cases hrep with
  | @node _ _ freq marker cs g1 g2 g3 g4 g5 g6 =>
    have hperm : order.Perm cs := hperm
    obtain ⟨paths, e, hnd, hmem⟩ := walks_spec (mk := mkRunes qMin) hwl (p := [])
      (gs := fun c => sub c (gs.reverse.map (List.map Char.toNat))) ((hperm.map Prod.fst).nodup_iff.2 g3)
      (fun c n hm => g6 c n (hperm.mem_iff.1 hm))
    have hfind : ∀ q x, (q, x) ∈ paths ↔ q ≠ [] ∧ findPath t.root q = some x := by
      intro q x
      rw [hmem, hroot]
      constructor
      · rintro ⟨c, n, q', rfl, hm, hf⟩
        exact ⟨by simp, by simp only [findPath, FNode.children, child_of_mem g3 (hperm.mem_iff.1 hm), hf]⟩
      · rintro ⟨hq, hf⟩
        cases q with
        | nil => exact absurd rfl hq
        | cons c q =>
          simp only [findPath, FNode.children] at hf
          split at hf
          · cases hf
          · rename_i ch hch
            exact ⟨c, ch, q, rfl, hperm.mem_iff.2 (mem_of_child hch), hf⟩
    -- texts for the paths
    have key : ∀ l : List (List Nat × FNode), (∀ x ∈ l, ∃ p : List Char, x.1 = p.map Char.toNat) →
        ∃ ps : List (List Char × FNode), l = ps.map (fun x => (x.1.map Char.toNat, x.2)) := by
      intro l
      induction l with
      | nil => exact fun _ => ⟨[], rfl⟩
      | cons x l ih =>
        intro hx
        obtain ⟨p, hp⟩ := hx x (List.mem_cons_self ..)
        obtain ⟨ps, hps⟩ := ih fun y hy => hx y (List.mem_cons_of_mem _ hy)
        exact ⟨(p, x.2) :: ps, by rw [List.map_cons, ← hps, ← hp]⟩
    obtain ⟨ps, hps⟩ := key paths fun x hx => hpc x.1 x.2 ((hfind x.1 x.2).1 hx).2
    refine ⟨ps, ?_, ?_, fun p n => ?_⟩
    · rw [e, hps, List.map_map]
      congr 1; funext x
      simp [encodeRunes_chars]
    · rw [hps, List.map_map] at hnd
      have : (Prod.fst ∘ fun x : List Char × FNode => (x.1.map Char.toNat, x.2)) = List.map Char.toNat ∘ Prod.fst := rfl
      rw [this, ← List.map_map] at hnd
      exact List.Pairwise.of_map (List.map Char.toNat) (fun a b h e => h (by rw [e])) hnd
    · rw [find_utf8]
      have h1 : (p, n) ∈ ps ↔ (p.map Char.toNat, n) ∈ paths := by
        rw [hps, List.mem_map]
        constructor
        · exact fun h => ⟨_, h, rfl⟩
        · rintro ⟨⟨p', n'⟩, hm, e⟩
          have e1 : p'.map Char.toNat = p.map Char.toNat := by injection e
          have e2 : n' = n := by injection e
          rw [← List.map_injective_iff.2 toNat_injective e1, ← e2]; exact hm
      rw [h1, hfind]
      simp only [ne_eq, List.map_eq_nil_iff, NodeValue.pointer.injEq]

end Verif.VGram
