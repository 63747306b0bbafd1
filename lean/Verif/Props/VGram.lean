import Verif.Proofs.VGramText
import Mathlib.Data.List.Nodup
/-
Property theorems C87 (pkg/vgram/frequency_trie.go). Grams are texts (valid UTF-8), fewer than 2^32 of them, each shorter
than 2^32 bytes.
-/
namespace Verif.Props
open Verif.VGram Spec

variable {qMin : Nat} {gs : List (List Char)} {t t' : FTrie}

/-- C87: `Find(p)` gives a node iff some added gram begins with `p`; its frequency is the number of these grams and its marker,
which is there iff the last character of `p` begins at byte `qMin - 1` or later, counts the grams equal to `p`. -/
theorem C87_frequencies (hn : gs.length < 2 ^ 32) (hg : ∀ g ∈ gs, (utf8 g).length < 2 ^ 32) {p : List Char} (hp : p ≠ []) :
    (begins gs p = 0 → (gramTrie qMin gs).find (utf8 p) = .pointer none) ∧
    (begins gs p ≠ 0 → ∃ n, (gramTrie qMin gs).find (utf8 p) = .pointer (some n) ∧ n.frequency = begins gs p ∧
      n.marker = if qMin ≤ (utf8 p.dropLast).length + 1 then some (gs.count p) else none) := by
  obtain ⟨hr, hfull⟩ := gramTrie_rep (qMin := qMin) gs hn hg
  have hlen : (subs (p.map Char.toNat) (gs.reverse.map (List.map Char.toNat))).length = begins gs p := by
    rw [length_subs, count_runes]
    unfold begins
    congr 1; funext g
    exact decide_eq_decide.2 map_prefix
  rw [find_utf8]
  constructor
  · intro h0
    cases hf : findPath (gramTrie qMin gs).root (p.map Char.toNat) with
    | none => rfl
    | some x =>
      have := subs_ne_nil_of_find _ (by simpa using hp) hr hf
      rw [h0] at hlen
      exact absurd (List.length_eq_zero_iff.1 hlen) this
  · intro h0
    obtain ⟨x, hx⟩ := findPath_some_of_full (p.map Char.toNat) hfull (fun e => h0 (by rw [← hlen, e]; rfl))
    have h1 := findPath_grep _ hr hx
    have h2 := findPath_full _ hfull hx
    refine ⟨x, by rw [hx], ?_⟩
    cases h1 with
    | @node _ _ freq marker cs g1 g2 g3 g4 g5 g6 =>
      cases h2 with
      | node k1 k2 =>
        refine ⟨by rw [← hlen]; exact g1 (by simpa using hp), ?_⟩
        show marker = _
        rw [g2, List.nil_append, mkRunes_chars hp, countP_stays_nil k1]
        have hc : (subs (p.map Char.toNat) (gs.reverse.map (List.map Char.toNat))).count [] = gs.count p := by
          rw [List.count, countP_subs, count_runes, List.count]
          refine List.countP_congr fun g _ => ?_
          simp only [Bool.and_eq_true, decide_eq_true_eq, beq_iff_eq, map_prefix, List.length_map, List.drop_eq_nil_iff]
          constructor
          · rintro ⟨h1, h2⟩; exact (h1.eq_of_length_le h2).symm
          · rintro rfl; exact ⟨List.prefix_refl _, Nat.le_refl _⟩
        by_cases hm : qMin ≤ (utf8 p.dropLast).length + 1
        · rw [if_pos hm, if_pos (by simpa using hm), hc]
        · rw [if_neg hm, if_neg (by simpa using hm)]

theorem utf8_ascii {p : List Char} (h : ∀ c ∈ p, c.toNat < 128) : (utf8 p).length = p.length := by
  rw [← runeLen_sum]
  induction p with
  | nil => rfl
  | cons c p ih =>
    have hc := h c (List.mem_cons_self ..)
    simp only [List.map_cons, List.sum_cons, ih fun x hx => h x (List.mem_cons_of_mem _ hx), List.length_cons]
    simp only [runeLen]
    rw [if_pos (by omega)]; omega

/-- C87, for grams of ASCII characters: exactly the nodes of at least `qMin` characters are markers. (Missing: false for
other grams, see `C87_marker_wrong`.) -/
theorem C87_markers_partial (hn : gs.length < 2 ^ 32) (hg : ∀ g ∈ gs, (utf8 g).length < 2 ^ 32) {p : List Char} (hp : p ≠ [])
    (ha : ∀ c ∈ p, c.toNat < 128) (hb : begins gs p ≠ 0) :
    ∃ n, (gramTrie qMin gs).find (utf8 p) = .pointer (some n) ∧ (n.marker = if qMin ≤ p.length then some (gs.count p) else none) := by
  obtain ⟨n, h1, _, h3⟩ := (C87_frequencies (qMin := qMin) hn hg hp).2 hb
  refine ⟨n, h1, ?_⟩
  rw [h3, utf8_ascii fun c hc => ha c (List.dropLast_subset p hc), List.length_dropLast]
  have : 0 < p.length := List.length_pos_iff.2 hp
  have e : p.length - 1 + 1 = p.length := by omega
  rw [e]

/-- C87, finding: positions are bytes, so a gram of two characters has a marker although `qMin` is 3. -/
theorem C87_marker_wrong : ∃ n, (gramTrie 3 [['я', 'я']]).find (utf8 ['я', 'я']) = .pointer (some n) ∧ n.marker = some 1 := by
  obtain ⟨n, h1, _, h3⟩ := (C87_frequencies (qMin := 3) (gs := [['я', 'я']]) (p := ['я', 'я']) (by decide) (by decide) (by decide)).2
    (by decide)
  exact ⟨n, h1, by rw [h3]; decide⟩

/-- C87, finding: the node returned for a gram that is not there is not equal to nil, and using it panics. -/
theorem C87_absent_not_nil (hn : gs.length < 2 ^ 32) (hg : ∀ g ∈ gs, (utf8 g).length < 2 ^ 32) {p : List Char} (hp : p ≠ [])
    (hb : begins gs p = 0) : ((gramTrie qMin gs).find (utf8 p)).isNil = false ∧
      ∃ e, ((gramTrie qMin gs).find (utf8 p)).getFrequency = .error e ∧ e.isPanic = true := by
  rw [(C87_frequencies (qMin := qMin) hn hg hp).1 hb]
  exact ⟨rfl, .panicIndex, rfl, rfl⟩

/-- C87: whatever the order of the maps, `Walk` calls the walker exactly once for each gram in the trie, with the node that
`Find` gives for it. -/
theorem C87_walk (hn : gs.length < 2 ^ 32) (hg : ∀ g ∈ gs, (utf8 g).length < 2 ^ 32) (h : GramHistory qMin gs t)
    {calls : List (Bytes × FNode)} (hw : t.Walks calls) :
    (calls.map Prod.fst).Nodup ∧ ∀ key n, (key, n) ∈ calls ↔ ∃ p, p ≠ [] ∧ key = utf8 p ∧ t.find (utf8 p) = .pointer (some n) := by
  obtain ⟨ps, rfl, hnd, hm⟩ := history_walk hn hg h hw
  constructor
  · rw [List.map_map]
    have : (Prod.fst ∘ fun x : List Char × FNode => (utf8 x.1, x.2)) = utf8 ∘ Prod.fst := rfl
    rw [this, ← List.map_map]
    exact List.Pairwise.map utf8 (fun a b h e => h (utf8_injective e)) hnd
  · intro key n
    rw [List.mem_map]
    constructor
    · rintro ⟨⟨p, m⟩, hx, e⟩
      cases e
      exact ⟨p, ((hm p m).1 hx).1, rfl, ((hm p m).1 hx).2⟩
    · rintro ⟨p, h1, rfl, h3⟩
      exact ⟨(p, n), (hm p n).2 ⟨h1, h3⟩, rfl⟩

open Classical in
/-- C87: after any number of prunings the frequency of a node is still the number of grams that begin with it, and its marker
counts the grams of which it is the longest beginning left in the trie. -/
theorem C87_assignment (hn : gs.length < 2 ^ 32) (hg : ∀ g ∈ gs, (utf8 g).length < 2 ^ 32) (h : GramHistory qMin gs t)
    {p : List Char} (hp : p ≠ []) {n : FNode} (hf : t.find (utf8 p) = .pointer (some n)) :
    n.frequency = begins gs p ∧ n.marker = if qMin ≤ (utf8 p.dropLast).length + 1 then
      some (gs.countP fun g => decide (Longest (InTrie t) p g)) else none := history_find hn hg h hp hf

/-- C87: after any number of prunings every gram that had a marker has a beginning with a marker: no gram is lost. -/
theorem C87_kept (hn : gs.length < 2 ^ 32) (hg : ∀ g ∈ gs, (utf8 g).length < 2 ^ 32) (h : GramHistory qMin gs t)
    {g : List Char} (hgm : g ∈ gs) (hne : g ≠ []) (hq : qMin ≤ (utf8 g.dropLast).length + 1) :
    ∃ p n m, p ≠ [] ∧ Longest (InTrie t) p g ∧ t.find (utf8 p) = .pointer (some n) ∧ n.marker = some m ∧ 0 < m := by
  classical
  obtain ⟨p, h1, h2, h3⟩ := history_kept hn hg h hgm hne hq
  obtain ⟨n, hf⟩ := h3.2.1
  refine ⟨p, n, _, h1, h3, hf, by rw [(history_find hn hg h h1 hf).2, if_pos h2], ?_⟩
  exact List.countP_pos_iff.2 ⟨g, hgm, by simpa using h3⟩

/-- C87: `Prune(T)` always has a result; it adds no node, changes no frequency, and a marker only grows, to at most `T` (or not
at all). -/
theorem C87_prune (hn : gs.length < 2 ^ 32) (hg : ∀ g ∈ gs, (utf8 g).length < 2 ^ 32) (h : GramHistory qMin gs t) (T : Nat) :
    (∃ t', t.Prunes T t') ∧ ∀ t', t.Prunes T t' → ∀ p n', t'.find (utf8 p) = .pointer (some n') →
      ∃ n, t.find (utf8 p) = .pointer (some n) ∧ n'.frequency = n.frequency ∧ n'.marker.isSome = n.marker.isSome ∧
        ∀ m m', n.marker = some m → n'.marker = some m' → m ≤ m' ∧ m' ≤ max T m := by
  constructor
  · obtain ⟨n', h'⟩ := prune_exists T t.root
    exact ⟨⟨n', t.qMin⟩, h', rfl⟩
  · intro t' hp p n' hf
    rw [find_utf8] at hf
    have hf : findPath t'.root (p.map Char.toNat) = some n' := by injection hf
    obtain ⟨x, hx, hrest⟩ := prune_below (history_rep hn hg h) (by simpa using hn) mkRunes_nonempty hp.1 _ _ hf
    exact ⟨x, by rw [find_utf8, hx], hrest⟩

/-- C87: pruning is maximal: what is left behind a marker cannot be merged into it without exceeding the threshold. In
particular a marked node whose frequency is at most the threshold has nothing left behind it. -/
theorem C87_maximal (hn : gs.length < 2 ^ 32) (hg : ∀ g ∈ gs, (utf8 g).length < 2 ^ 32) (h : GramHistory qMin gs t) {T : Nat}
    (hpr : t.Prunes T t') {p : List Char} {c : Char} {n n' : FNode} {m : Nat} (hf : t'.find (utf8 p) = .pointer (some n))
    (hm : n.marker = some m) (hf' : t'.find (utf8 (p ++ [c])) = .pointer (some n')) : T < m + n'.frequency ∧ T < n.frequency := by
  rw [find_utf8] at hf hf'
  have hf : findPath t'.root (p.map Char.toNat) = some n := by injection hf
  have hf' : findPath t'.root ((p ++ [c]).map Char.toNat) = some n' := by injection hf'
  obtain ⟨hr, hmax⟩ := prune_spec (history_rep hn hg h) (by simpa using hn) mkRunes_nonempty hpr.1
  have h1 := findPath_maximal _ hmax hf
  rw [List.map_append, findPath_append, hf] at hf'
  simp only [List.map_cons, List.map_nil, Option.bind_some, findPath] at hf'
  split at hf'
  · cases hf'
  · rename_i ch hch
    cases hf'
    have hr1 := findPath_grep _ hr hf
    cases h1 with
    | @node freq marker cs m1 m2 =>
      have hlt := m1 m hm _ _ (mem_of_child hch)
      refine ⟨hlt, ?_⟩
      cases hr1 with
      | node g1 g2 g3 g4 g5 g6 =>
        have hne : mkRunes qMin ([] ++ p.map Char.toNat) = true := by
          by_contra hc
          rw [if_neg hc] at g2
          rw [show FNode.marker (.mk freq marker cs) = marker from rfl, g2] at hm
          cases hm
        have hfr := g1 (mkRunes_nonempty hne)
        rw [if_pos hne] at g2
        have hmem : c.toNat ∈ cs.map Prod.fst := List.mem_map.2 ⟨_, mem_of_child hch, rfl⟩
        have := length_sub_add (gs := subs (p.map Char.toNat) (gs.reverse.map (List.map Char.toNat))) hmem
        have hchf : n'.frequency = (sub c.toNat (subs (p.map Char.toNat) (gs.reverse.map (List.map Char.toNat)))).length := by
          have := g6 _ _ (mem_of_child hch)
          cases this with
          | node k1 => exact k1 (by simp)
        rw [show FNode.marker (.mk freq marker cs) = marker from rfl, g2] at hm
        injection hm with hm
        show T < freq
        omega

/-- C87: pruning again with the same threshold changes nothing that can be observed. -/
theorem C87_idempotent (hn : gs.length < 2 ^ 32) (hg : ∀ g ∈ gs, (utf8 g).length < 2 ^ 32) (h : GramHistory qMin gs t) {T : Nat}
    {t'' : FTrie} (h1 : t.Prunes T t') (h2 : t'.Prunes T t'') (p : List Char) :
    (InTrie t'' p ↔ InTrie t' p) ∧ ∀ n n', t'.find (utf8 p) = .pointer (some n) → t''.find (utf8 p) = .pointer (some n') →
      n'.frequency = n.frequency ∧ n'.marker = n.marker := by
  obtain ⟨hr, hmax⟩ := prune_spec (history_rep hn hg h) (by simpa using hn) mkRunes_nonempty h1.1
  have := prune_again hr (by simpa using hn) mkRunes_nonempty hmax h2.1 (p.map Char.toNat)
  constructor
  · rw [inTrie_iff, inTrie_iff]
    constructor
    · rintro ⟨x, hx⟩
      rw [hx] at this
      cases hy : findPath t'.root (p.map Char.toNat) with
      | none => rw [hy] at this; cases this
      | some y => exact ⟨y, rfl⟩
    · rintro ⟨x, hx⟩
      rw [hx] at this
      cases hy : findPath t''.root (p.map Char.toNat) with
      | none => rw [hy] at this; cases this
      | some y => exact ⟨y, rfl⟩
  · intro n n' hf hf'
    rw [find_utf8] at hf hf'
    have hf : findPath t'.root (p.map Char.toNat) = some n := by injection hf
    have hf' : findPath t''.root (p.map Char.toNat) = some n' := by injection hf'
    rw [hf, hf'] at this
    simp only [Option.map_some, Option.some.injEq, Prod.mk.injEq] at this
    exact this

theorem sum_countP {α β : Type} (L : α → β → Bool) (ps : List α) (l : List β) :
    (ps.map fun p => l.countP (L p)).sum = (l.map fun g => ps.countP (fun p => L p g)).sum := by
  induction l with
  | nil => simp
  | cons g l ih =>
    simp only [List.map_cons, List.sum_cons, ← ih]
    induction ps with
    | nil => simp
    | cons p ps ihp =>
      simp only [List.map_cons, List.sum_cons, List.countP_cons] at ihp ⊢
      have := ihp (by
        clear ihp ih
        induction l with
        | nil => simp
        | cons g' l ihl => simp only [List.map_cons, List.sum_cons, ← ihl]; exact sum_step L ps g' l)
      omega
where
  sum_step {α β : Type} (L : α → β → Bool) (ps : List α) (g : β) (l : List β) :
      (ps.map fun p => (g :: l).countP (L p)).sum = ps.countP (fun p => L p g) + (ps.map fun p => l.countP (L p)).sum := by
    induction ps with
    | nil => simp
    | cons p ps ih => simp only [List.map_cons, List.sum_cons, List.countP_cons] at ih ⊢; omega

theorem longest_unique {S : List Char → Prop} {p q g : List Char} (h1 : Longest S p g) (h2 : Longest S q g) : p = q := by
  have e : p.length = q.length := Nat.le_antisymm (h2.2.2 p h1.1 h1.2.1) (h1.2.2 q h2.1 h2.2.1)
  rw [List.prefix_iff_eq_take.1 h1.1, List.prefix_iff_eq_take.1 h2.1, e]

/-- C87: no pruning changes the sum of all the marker frequencies a walk sees: it is the number of added grams that are long
enough to have a marker. -/
theorem C87_total (hn : gs.length < 2 ^ 32) (hg : ∀ g ∈ gs, (utf8 g).length < 2 ^ 32) (h : GramHistory qMin gs t)
    {calls : List (Bytes × FNode)} (hw : t.Walks calls) :
    (calls.map fun x => x.2.marker.getD 0).sum =
      gs.countP fun g => decide (g ≠ []) && decide (qMin ≤ (utf8 g.dropLast).length + 1) := by
  classical
  obtain ⟨ps, rfl, hnd, hm⟩ := history_walk hn hg h hw
  have e : ((ps.map fun x => (utf8 x.1, x.2)).map fun x => x.2.marker.getD 0) =
      (ps.map Prod.fst).map fun p => gs.countP fun g =>
        decide (qMin ≤ (utf8 p.dropLast).length + 1) && decide (Longest (InTrie t) p g) := by
    rw [List.map_map, List.map_map]
    refine List.map_congr_left fun x hx => ?_
    obtain ⟨h1, h2⟩ := (hm x.1 x.2).1 hx
    simp only [Function.comp_apply, (history_find hn hg h h1 h2).2]
    by_cases hq : qMin ≤ (utf8 x.1.dropLast).length + 1 <;> simp [hq]
  rw [e, sum_countP]
  have e2 : ∀ g ∈ gs, (ps.map Prod.fst).countP (fun p => decide (qMin ≤ (utf8 p.dropLast).length + 1) && decide (Longest (InTrie t) p g)) =
      if (decide (g ≠ []) && decide (qMin ≤ (utf8 g.dropLast).length + 1)) then 1 else 0 := by
    intro g hgm
    by_cases hq : g ≠ [] ∧ qMin ≤ (utf8 g.dropLast).length + 1
    · obtain ⟨p, h1, h2, h3⟩ := history_kept hn hg h hgm hq.1 hq.2
      obtain ⟨n, hf⟩ := h3.2.1
      rw [if_pos (by simpa using hq)]
      have hmem : p ∈ ps.map Prod.fst := List.mem_map.2 ⟨(p, n), (hm p n).2 ⟨h1, hf⟩, rfl⟩
      refine Eq.trans ?_ (List.count_eq_one_of_mem hnd hmem)
      rw [List.count]
      refine List.countP_congr fun q _ => ?_
      simp only [Bool.and_eq_true, decide_eq_true_eq, beq_iff_eq]
      constructor
      · rintro ⟨_, h4⟩; exact longest_unique h4 h3
      · rintro rfl; exact ⟨h2, h3⟩
    · rw [if_neg (by simpa using hq), List.countP_eq_zero]
      intro p hp hcon
      simp only [Bool.and_eq_true, decide_eq_true_eq] at hcon
      obtain ⟨⟨p', n⟩, hx, rfl⟩ := List.mem_map.1 hp
      have hp0 := ((hm p' n).1 hx).1
      refine hq ⟨?_, ?_⟩
      · rintro rfl
        exact hp0 (List.prefix_nil.1 hcon.2.1)
      · have := utf8_length_mono (dropLast_prefix_of hcon.2.1)
        have h' : qMin ≤ (utf8 p'.dropLast).length + 1 := hcon.1
        show qMin ≤ _
        have h'' : (utf8 p'.dropLast).length ≤ (utf8 g.dropLast).length := this
        omega
  rw [List.map_congr_left e2]
  clear e e2
  generalize gs = l
  induction l with
  | nil => rfl
  | cons g l ih => simp only [List.map_cons, List.sum_cons, List.countP_cons, ih]; omega

theorem add_utf8 (t : FTrie) (g : List Char) : t.add (utf8 g) = ⟨addPath t.qMin t.root (offsets 0 (g.map charPair)), t.qMin⟩ := by
  rw [FTrie.add, rangeText_eq, charsOf_utf8]

/-- Two grams, each added twice. -/
def twinGrams : List (List Char) := [['a', 'b'], ['a', 'b'], ['a', 'c'], ['a', 'c']]

theorem twin_trie : gramTrie 1 twinGrams =
    ⟨.mk 0 none [(97, .mk 4 (some 0) [(98, .mk 2 (some 2) []), (99, .mk 2 (some 2) [])])], 1⟩ := by
  simp only [gramTrie, twinGrams, List.foldl_cons, List.foldl_nil, add_utf8]
  rfl

/-- C87, finding: which of two equally frequent grams survives a pruning depends on the order of the map: two runs on the same
grams can give different dictionaries. -/
theorem C87_prune_depends_on_order : ∃ t1 t2, (gramTrie 1 twinGrams).Prunes 3 t1 ∧ (gramTrie 1 twinGrams).Prunes 3 t2 ∧
    InTrie t1 ['a', 'c'] ∧ ¬ InTrie t1 ['a', 'b'] ∧ InTrie t2 ['a', 'b'] ∧ ¬ InTrie t2 ['a', 'c'] := by
  refine ⟨⟨.mk 0 none [(97, .mk 4 (some 2) [(99, .mk 2 (some 2) [])])], 1⟩,
    ⟨.mk 0 none [(97, .mk 4 (some 2) [(98, .mk 2 (some 2) [])])], 1⟩, ?_, ?_, ?_⟩
  · rw [twin_trie]
    refine ⟨.unmarked (List.Perm.refl _) (.cons (.large (by decide) (List.Perm.refl _) (by simp [FNode.frequency])
      (.merge (by decide) (.keep (by decide) (.small (by decide)) .nil))) .nil), rfl⟩
  · rw [twin_trie]
    refine ⟨.unmarked (List.Perm.refl _) (.cons (.large (by decide) (List.Perm.swap _ _ _) (by simp [FNode.frequency])
      (.merge (by decide) (.keep (by decide) (.small (by decide)) .nil))) .nil), rfl⟩
  · simp only [inTrie_iff]
    exact ⟨⟨_, rfl⟩, (fun ⟨_, h⟩ => nomatch h), ⟨_, rfl⟩, (fun ⟨_, h⟩ => nomatch h)⟩

/-- The hypotheses of the theorems above are met: a trie, its pruning, and a gram in it. -/
example : ∃ t', (gramTrie 1 twinGrams).Prunes 3 t' ∧ GramHistory 1 twinGrams t' ∧ twinGrams.length < 2 ^ 32 ∧
    (∀ g ∈ twinGrams, (utf8 g).length < 2 ^ 32) ∧ InTrie t' ['a'] ∧ begins twinGrams ['a'] = 4 ∧ begins twinGrams ['z'] = 0 := by
  obtain ⟨t1, _, h1, _, h3, _⟩ := C87_prune_depends_on_order
  have hh : GramHistory 1 twinGrams t1 := .pruned .built h1
  refine ⟨t1, h1, hh, by decide, by decide, ?_, by decide, by decide⟩
  obtain ⟨x, hx⟩ := inTrie_iff.1 h3
  refine inTrie_iff.2 ?_
  rw [show (['a', 'c'].map Char.toNat) = ['a'.toNat] ++ ['c'.toNat] from rfl, findPath_append] at hx
  cases hy : findPath t1.root ['a'.toNat] with
  | none => rw [hy] at hx; cases hx
  | some y => exact ⟨y, hy⟩

end Verif.Props
