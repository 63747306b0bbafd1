import Verif.Proofs.Iterator

namespace Verif
open Spec
namespace SkipList

/-- `s` stands on `c`; `blk` is the rest of the current block, `later` are the later blocks. -/
def At (g : Nat) (s : SkipList) (c : Nat) (blk later : List Nat) : Prop :=
  s.current = c ∧ s.currentSkipValue < 2 ^ 32 ∧ s.skippingGap = g + 1 ∧
  (∃ rest, s.input.buf.drop s.input.i
    = varIntEncode blk c ++ (skipBytes g later s.currentSkipValue ++ rest)) ∧
  s.nextSkipPosition = s.input.i + (varIntEncode blk c).length ∧
  s.isLastBlock = later.isEmpty

theorem readSkipping_at {g : Nat} (hg : g + 1 < maxSkippingGap) {s : SkipList} {y : Nat}
    {ys : List Nat} {rest : List UInt8} (hgap : s.skippingGap = g + 1)
    (hd : s.input.buf.drop s.input.i = skipBytes g (y :: ys) s.currentSkipValue ++ rest)
    (hv : s.currentSkipValue < 2 ^ 32) (hy : y < 2 ^ 32) (hn : s.nextSkipPosition = s.input.i) :
    ∃ s', readSkipping s = (none, s') ∧ At g s' y (ys.take g) (ys.drop g) ∧
      s'.index = s.index ∧ s'.size = s.size ∧ s'.input.buf = s.input.buf := by
  rw [skipBytes_cons, List.append_assoc, List.append_assoc] at hd
  have hb := block_len_bound hg (y :: ys) s.currentSkipValue
  have h16 := readUInt16_enc (blockHeader_lt hb _) hd
  have hd2 := drop_add_of_drop hd
  rw [encUInt16_length] at hd2
  have hun := unpackPos_blockHeader (m := (varIntEncode ((y :: ys).take (g + 1))
    s.currentSkipValue).length) (by omega) ((y :: ys).drop (g + 1)).isEmpty
  rw [List.take_succ_cons, List.drop_succ_cons] at *
  simp only [varIntEncode, List.append_assoc] at hd2
  have hr := readVUInt32_enc (u32sub_lt y s.currentSkipValue) hd2
  have hd3 := drop_add_of_drop hd2
  have hlen : (varIntEncode (y :: ys.take g) s.currentSkipValue).length
      = (encVUInt32 (u32sub y s.currentSkipValue)).length + (varIntEncode (ys.take g) y).length := by
    simp [varIntEncode]
  obtain ⟨m, hm⟩ : ∃ m, (encVUInt32 (u32sub y s.currentSkipValue)).length = m := ⟨_, rfl⟩
  have hsum := u32_add_sub hy hv
  have hinp : s.input.readUInt16 = _ := h16
  have heq : readSkipping s = (none, { s with
      input := ⟨s.input.buf, s.input.i + 2 + m⟩, current := y, currentSkipValue := y,
      nextSkipPosition := s.nextSkipPosition +
        ((varIntEncode (y :: ys.take g) s.currentSkipValue).length + 2),
      isLastBlock := (ys.drop g).isEmpty }) := by
    unfold readSkipping
    rw [hinp]
    simp only [hun, hr, hsum, hm]
  rw [hm] at hd3 hlen
  refine ⟨_, heq, ⟨rfl, hy, hgap, ⟨rest, hd3⟩, ?_, rfl⟩, rfl, rfl, rfl⟩
  simp only [hlen, hn]; omega

/-- `s` represents the abstract iterator: see `At`; `index` counts elements, and if there is a later
block it starts at an index that is a multiple of the gap. -/
def Rep (g : Nat) (s : SkipList) (t : Iter) : Prop :=
  g + 1 < maxSkippingGap ∧ t.rem.Pairwise (· ≤ ·) ∧
  s.size = t.total ∧ s.index + t.rem.length = s.size ∧ (∀ x ∈ t.rem, x < 2 ^ 32) ∧
  ∀ c cs, t.rem = c :: cs → ∃ blk later k, cs = blk ++ later ∧ At g s c blk later ∧
    k * (g + 1) ≤ s.index ∧ (later ≠ [] → s.index + blk.length + 1 = (k + 1) * (g + 1))

theorem next_end {s : SkipList} (h : s.size ≤ s.index + 1) :
    next s = (.error .notDereferencable, s) := by
  unfold next hasNext
  rw [if_pos]; simpa using h

theorem hasNext_of {s : SkipList} (h : s.index + 1 < s.size) : s.hasNext = true := by
  unfold hasNext; simpa using h

/-- `Next` at a block boundary. -/
theorem next_boundary {g : Nat} (hg : g + 1 < maxSkippingGap) {s : SkipList} {y : Nat}
    {ys : List Nat} {rest : List UInt8} (hgap : s.skippingGap = g + 1)
    (hd : s.input.buf.drop s.input.i = skipBytes g (y :: ys) s.currentSkipValue ++ rest)
    (hv : s.currentSkipValue < 2 ^ 32) (hy : y < 2 ^ 32) (hn : s.nextSkipPosition = s.input.i)
    (hh : s.index + 1 < s.size) :
    ∃ s', next s = (.ok y, s') ∧ At g s' y (ys.take g) (ys.drop g) ∧
      s'.index = s.index + 1 ∧ s'.size = s.size ∧ s'.input.buf = s.input.buf := by
  obtain ⟨s', hr, hat, h1, h2, h3⟩ := readSkipping_at hg hgap hd hv hy hn
  refine ⟨{ s' with index := s'.index + 1 }, ?_, hat, by simp [h1], h2, h3⟩
  unfold next
  rw [hasNext_of hh, hn, hr]
  simp [hat.1]

/-- `Next` inside a block. -/
theorem next_inside {g : Nat} {s : SkipList} {c y : Nat} {ys later : List Nat}
    (hat : At g s c (y :: ys) later) (hc : c < 2 ^ 32) (hy : y < 2 ^ 32)
    (hh : s.index + 1 < s.size) :
    ∃ s', next s = (.ok y, s') ∧ At g s' y ys later ∧
      s'.index = s.index + 1 ∧ s'.size = s.size ∧ s'.input.buf = s.input.buf := by
  obtain ⟨hcur, hv, hgap, ⟨rest, hd⟩, hn, hl⟩ := hat
  simp only [varIntEncode, List.append_assoc] at hd
  have hr := readVUInt32_enc (u32sub_lt y c) hd
  have hd2 := drop_add_of_drop hd
  have hpos := encVUInt32_pos (u32sub y c)
  have hlen : (varIntEncode (y :: ys) c).length
      = (encVUInt32 (u32sub y c)).length + (varIntEncode ys y).length := by
    simp [varIntEncode]
  obtain ⟨m, hm⟩ : ∃ m, (encVUInt32 (u32sub y c)).length = m := ⟨_, rfl⟩
  have hsum := u32_add_sub hy hc
  have hinp : s.input.readVUInt32 = _ := hr
  have heq : next s = (.ok y, { s with
      input := ⟨s.input.buf, s.input.i + m⟩, current := y, index := s.index + 1 }) := by
    unfold next
    rw [hasNext_of hh, hinp]
    have : ¬ s.input.i = s.nextSkipPosition := by rw [hn, hlen]; omega
    simp only [Bool.not_true, Bool.false_eq_true, if_false, this, hcur, hsum, hm]
  rw [hm] at hd2 hlen
  refine ⟨_, heq, ⟨rfl, hv, hgap, ⟨rest, hd2⟩, ?_, hl⟩, rfl, rfl, rfl⟩
  simp only [hn, hlen]; omega

theorem next_cons {g : Nat} {s : SkipList} {x y : Nat} {ys : List Nat} {n : Nat}
    (h : Rep g s ⟨x :: y :: ys, n⟩) :
    ∃ s', next s = (.ok y, s') ∧ Rep g s' ⟨y :: ys, n⟩ := by
  obtain ⟨hg, hsort, hs, hi, hlt, hc⟩ := h
  simp only at hs hi hlt hc hsort
  obtain ⟨blk, later, k, hcs, hat, hk1, hk2⟩ := hc x (y :: ys) rfl
  have hx : x < 2 ^ 32 := hlt x (by simp)
  have hy : y < 2 ^ 32 := hlt y (by simp)
  have hh : s.index + 1 < s.size := by simp at hi; omega
  have hsort' : (y :: ys).Pairwise (· ≤ ·) := hsort.tail
  have hlt' : ∀ z ∈ y :: ys, z < 2 ^ 32 := fun z hz => hlt z (List.mem_cons_of_mem _ hz)
  cases blk with
  | nil =>
    obtain ⟨hcur, hv, hgap, ⟨rest, hd⟩, hn, hl⟩ := hat
    simp only [List.nil_append] at hcs
    subst hcs
    simp only [varIntEncode, List.nil_append] at hd
    simp only [varIntEncode, List.length_nil, Nat.add_zero] at hn
    obtain ⟨s', h1, h2, h3, h4, h5⟩ := next_boundary hg hgap hd hv hy hn hh
    have hk2 := hk2 (by simp)
    refine ⟨s', h1, hg, hsort', by rw [h4]; exact hs, ?_, hlt', ?_⟩
    · simp only [List.length_cons] at hi ⊢; omega
    · intro c cs heq
      simp only [List.cons.injEq] at heq
      obtain ⟨rfl, rfl⟩ := heq
      refine ⟨ys.take g, ys.drop g, k + 1, by simp, h2, ?_, ?_⟩
      · rw [h3]; simp only [List.length_nil] at hk2; omega
      · intro hne
        have : (ys.take g).length = g := by
          rw [List.length_take]
          have : g < ys.length := by
            by_contra hcon; exact hne (List.drop_eq_nil_of_le (by omega))
          omega
        rw [h3, this]
        simp only [List.length_nil] at hk2
        have : (k + 1 + 1) * (g + 1) = (k + 1) * (g + 1) + (g + 1) := by ring
        omega
  | cons b bs =>
    simp only [List.cons_append, List.cons.injEq] at hcs
    obtain ⟨rfl, rfl⟩ := hcs
    obtain ⟨s', h1, h2, h3, h4, h5⟩ := next_inside hat hx hy hh
    refine ⟨s', h1, hg, hsort', by rw [h4]; exact hs, ?_, hlt', ?_⟩
    · simp only [List.length_cons] at hi ⊢; omega
    · intro c cs heq
      simp only [List.cons.injEq] at heq
      obtain ⟨rfl, rfl⟩ := heq
      refine ⟨bs, later, k, rfl, h2, by omega, ?_⟩
      intro hne
      have := hk2 hne
      simp only [List.length_cons] at this
      omega

theorem next_rep {g s t} (h : Rep g s t) :
    (next s).1 = ofOpt t.next.1 ∧ Rep g (next s).2 t.next.2 := by
  have hrep := h
  obtain ⟨rem, total⟩ := t
  match hm : rem with
  | [] =>
    obtain ⟨-, -, hs, hi, -⟩ := h
    rw [next_end (by simp at hi; omega)]; exact ⟨rfl, hrep⟩
  | [x] =>
    obtain ⟨-, -, hs, hi, -⟩ := h
    rw [next_end (by simp at hi; omega)]; exact ⟨rfl, hrep⟩
  | x :: y :: ys =>
    obtain ⟨s', h1, h2⟩ := next_cons hrep
    rw [h1]; exact ⟨rfl, h2⟩

theorem seqLoop_rep {g bnd : Nat} : ∀ {k : Nat} {s : SkipList} {x : Nat} {xs : List Nat} {n : Nat},
    Rep g s ⟨x :: xs, n⟩ → x < bnd → xs.length < k →
    (seqLoop bnd k s).1 = ofOpt (xs.dropWhile (· < bnd)).head? ∧
      Rep g (seqLoop bnd k s).2 ⟨xs.dropWhile (· < bnd), n⟩ := by
  intro k
  induction k with
  | zero => intro s x xs n _ _ h; omega
  | succ k ih =>
    intro s x xs n h hx hk
    have hrep := h
    obtain ⟨hg, hsort, hs, hi, hlt, hc⟩ := h
    simp only at hs hi
    cases xs with
    | nil =>
      have hh : s.hasNext = false := by unfold hasNext; simp at hi; simp; omega
      unfold seqLoop
      rw [hh]
      simp only [Bool.false_eq_true, if_false, List.dropWhile_nil]
      exact ⟨rfl, hg, by simp, hs, by simp, by simp, by simp⟩
    | cons y ys =>
      have hh : s.hasNext = true := by apply hasNext_of; simp at hi; omega
      obtain ⟨s', h1, h2⟩ := next_cons hrep
      unfold seqLoop
      rw [hh, h1]
      simp only [if_true]
      by_cases hy : bnd ≤ y
      · rw [if_pos hy]
        rw [List.dropWhile_cons_of_neg (by simpa using hy)]
        exact ⟨rfl, h2⟩
      · rw [if_neg hy, List.dropWhile_cons_of_pos (by simpa using hy)]
        exact ih h2 (by omega) (by simp at hk; omega)

theorem dropWhile_append_all {l l' : List Nat} {p : Nat → Bool} (h : ∀ x ∈ l, p x = true) :
    (l ++ l').dropWhile p = l'.dropWhile p := by
  induction l with
  | nil => rfl
  | cons x xs ih =>
    rw [List.cons_append, List.dropWhile_cons_of_pos (h x (by simp))]
    exact ih fun y hy => h y (by simp [hy])

theorem blockLoop_rep {g bnd : Nat} : ∀ {k : Nat} {s : SkipList} {x : Nat} {xs : List Nat} {n skips : Nat},
    Rep g s ⟨x :: xs, n⟩ → x < bnd → skips = s.index / (g + 1) →
    ∃ s' x' xs', blockLoop bnd k skips s = (none, s') ∧ Rep g s' ⟨x' :: xs', n⟩ ∧ x' < bnd ∧
      xs'.dropWhile (· < bnd) = xs.dropWhile (· < bnd) := by
  intro k
  induction k with
  | zero => intro s x xs n skips h hx _; exact ⟨s, x, xs, rfl, h, hx, rfl⟩
  | succ k ih =>
    intro s x xs n skips h hx hsk
    have hrep := h
    obtain ⟨hg, hsort, hs, hi, hlt, hc⟩ := h
    simp only at hs hi hsort hlt
    obtain ⟨blk, later, q, hcs, hat, hk1, hk2⟩ := hc x xs rfl
    have hat' := hat
    obtain ⟨hcur, hv, hgap, ⟨rest, hd⟩, hn, hl⟩ := hat
    cases later with
    | nil =>
      unfold blockLoop
      rw [hl]
      exact ⟨s, x, xs, rfl, hrep, hx, rfl⟩
    | cons y ys =>
      have hk2 := hk2 (by simp)
      have hq : s.index / (g + 1) = q := by
        apply Nat.div_eq_of_lt_le
        · exact hk1
        · omega
      have hskq : skips = q := by rw [hsk, hq]
      have hxsl : xs.length = blk.length + (ys.length + 1) := by rw [hcs]; simp
      have hh : s.index + 1 < s.size := by simp only [List.length_cons] at hi; omega
      have hlt2 : ∀ z ∈ y :: ys, z < 2 ^ 32 := fun z hz => hlt z (by
        rw [hcs]; simp only [List.mem_cons, List.mem_append] at hz ⊢; tauto)
      have hy := hlt2 y (by simp)
      have hd' := drop_add_of_drop hd
      obtain ⟨s3, hs3⟩ : ∃ s3, s3 = { s with
          input := ⟨s.input.buf, s.nextSkipPosition⟩, index := (q + 1) * (g + 1) - 1 } := ⟨_, rfl⟩
      have hidx : s3.index = s.index + blk.length := by rw [hs3]; simp only []; omega
      have hnext := next_boundary hg (s := s3) (y := y) (ys := ys) (rest := rest)
        (by rw [hs3]; exact hgap) (by rw [hs3]; simp only []; rw [hn]; exact hd')
        (by rw [hs3]; exact hv) hy (by rw [hs3]) (by
          have e1 : s3.size = s.size := by rw [hs3]
          rw [hidx, e1]; simp only [List.length_cons] at hi; omega)
      obtain ⟨s4, hn4, hat4, hi4, hs4, hb4⟩ := hnext
      have hb4' : s4.input.buf = s.input.buf := by rw [hb4, hs3]
      have hs4' : s4.size = s.size := by rw [hs4, hs3]
      -- the state after the jump represents the later blocks
      have hrep4 : Rep g s4 ⟨y :: ys, n⟩ := by
        refine ⟨hg, ?_, by rw [hs4']; exact hs, ?_, hlt2, ?_⟩
        · have : (y :: ys).Sublist (x :: xs) := by
            rw [hcs]; exact List.Sublist.cons _ (List.sublist_append_right _ _)
          exact hsort.sublist this
        · simp only [List.length_cons] at hi ⊢
          rw [hs4', hi4, hidx]; omega
        · intro c cs heq
          simp only [List.cons.injEq] at heq
          obtain ⟨rfl, rfl⟩ := heq
          refine ⟨ys.take g, ys.drop g, q + 1, by simp, hat4, by omega, ?_⟩
          intro hne
          have : (ys.take g).length = g := by
            rw [List.length_take]
            have : g < ys.length := by
              by_contra hcon; exact hne (List.drop_eq_nil_of_le (by omega))
            omega
          have e : (q + 1 + 1) * (g + 1) = (q + 1) * (g + 1) + (g + 1) := by ring
          rw [hi4, hidx, this]; omega
      have hbody : blockLoop bnd (k + 1) skips s =
          (if y < bnd && !s4.isLastBlock then blockLoop bnd k (q + 1) s4
           else if y ≥ bnd then (none, { s with input := ⟨s4.input.buf, s.input.i⟩ })
           else blockLoop bnd k (q + 1) s4) := by
        conv => lhs; unfold blockLoop
        rw [if_pos (by rw [hl, hasNext_of hh]; rfl)]
        have hidx' : (skips + 1) * s.skippingGap - 1 = (q + 1) * (g + 1) - 1 := by
          rw [hgap, hskq]
        have hnot : ¬ (s.size ≤ (q + 1) * (g + 1) - 1) := by
          simp only [List.length_cons] at hi; omega
        have hnot' : ¬ ((skips + 1) * s.skippingGap - 1 ≥ s.size) := by rw [hidx']; exact hnot
        simp only [moveToPosition, hnot', if_false]
        rw [hidx', ← hs3, hn4, hskq]
      rw [hbody]
      have hsplit : y < bnd → ∃ s' x' xs', blockLoop bnd k (q + 1) s4 = (none, s') ∧
          Rep g s' ⟨x' :: xs', n⟩ ∧ x' < bnd ∧
          xs'.dropWhile (· < bnd) = xs.dropWhile (· < bnd) := by
        intro hyb
        have hq4 : q + 1 = s4.index / (g + 1) := by
          symm
          apply Nat.div_eq_of_lt_le
          · rw [hi4, hidx]; omega
          · have e : (q + 1 + 1) * (g + 1) = (q + 1) * (g + 1) + (g + 1) := by ring
            rw [hi4, hidx, e]; omega
        obtain ⟨s', x', xs', e1, e2, e3, e4⟩ := ih hrep4 hyb hq4
        refine ⟨s', x', xs', e1, e2, e3, ?_⟩
        rw [e4, hcs]
        have : (blk ++ y :: ys).dropWhile (fun z => decide (z < bnd))
            = (y :: ys).dropWhile (fun z => decide (z < bnd)) := by
          apply dropWhile_append_all
          intro z hz
          have : z ≤ y := by
            have hp : (blk ++ y :: ys).Pairwise (· ≤ ·) := by rw [← hcs]; exact hsort.tail
            exact (List.pairwise_append.1 hp).2.2 z hz y (by simp)
          simp; omega
        rw [this, List.dropWhile_cons_of_pos (by simpa using hyb)]
      by_cases hyb : y < bnd
      · rw [show (if (decide (y < bnd) && !s4.isLastBlock) = true then blockLoop bnd k (q + 1) s4
          else if y ≥ bnd then (none, { s with input := ⟨s4.input.buf, s.input.i⟩ })
          else blockLoop bnd k (q + 1) s4) = blockLoop bnd k (q + 1) s4 by
            rw [if_neg (show ¬ y ≥ bnd by omega), ite_self]]
        exact hsplit hyb
      · rw [if_neg (by simp [hyb]), if_pos (by omega), hb4']
        exact ⟨s, x, xs, rfl, hrep, hx, rfl⟩

theorem lowerBound_rep {g s t} (bnd : Nat) (h : Rep g s t) :
    (lowerBound s bnd).1 = ofOpt (t.lowerBound bnd).1 ∧
      Rep g (lowerBound s bnd).2 (t.lowerBound bnd).2 := by
  have hrep := h
  obtain ⟨hg, hsort, hs, hi, hlt, hc⟩ := h
  obtain ⟨rem, total⟩ := t
  simp only at hs hi hlt hc
  unfold lowerBound isValid Iter.lowerBound
  match hm : rem with
  | [] =>
    have : ¬ s.index < s.size := by simp at hi; omega
    simp only [this, decide_false, Bool.not_false, if_true]
    exact ⟨rfl, hrep⟩
  | x :: xs =>
    have : s.index < s.size := by simp at hi; omega
    simp only [this, decide_true, Bool.not_true, Bool.false_eq_true, if_false]
    obtain ⟨blk, later, q, -, hat, -⟩ := hc x xs rfl
    have hcur := hat.1
    have hgap := hat.2.2.1
    by_cases hx : bnd ≤ x
    · rw [if_pos (by omega), List.dropWhile_cons_of_neg (by simpa using hx), hcur]
      exact ⟨rfl, hrep⟩
    · rw [if_neg (by omega), List.dropWhile_cons_of_pos (by simpa using hx)]
      have hsk : (if s.index > 0 then s.index / s.skippingGap else 0) = s.index / (g + 1) := by
        rw [hgap]
        split
        · rfl
        · rename_i h0
          have : s.index = 0 := by omega
          rw [this, Nat.zero_div]
      obtain ⟨s', x', xs', e1, e2, e3, e4⟩ := blockLoop_rep (bnd := bnd) (k := s.size) hrep (by omega) hsk
      rw [e1]
      simp only
      have hsz : xs'.length < s.size := by
        obtain ⟨-, -, hs', hi', -⟩ := e2
        simp at hs' hi'; omega
      have := seqLoop_rep (k := s.size) e2 e3 hsz
      rw [e4] at this
      exact this

theorem get_rep {g s t} (h : Rep g s t) : get s = ofOpt t.get := by
  obtain ⟨-, -, hs, hi, hlt, hc⟩ := h
  obtain ⟨rem, total⟩ := t
  simp only at hs hi hlt hc
  unfold get isValid Iter.get
  match rem with
  | [] =>
    have : ¬ s.index < s.size := by simp at hi; omega
    simp [this, ofOpt]
  | x :: xs =>
    have : s.index < s.size := by simp at hi; omega
    obtain ⟨blk, later, q, -, hat, -⟩ := hc x xs rfl
    simp [this, ofOpt, hat.1]

/-- The skipping posting list simulates the abstract iterator. -/
def sim (g : Nat) : IterSim SkipList where
  Rep := Rep g
  get := get_rep
  hasNext := by
    rintro s t ⟨-, -, hs, hi, -, -⟩
    change hasNext s = _
    simp only [hasNext, Iter.hasNext]
    congr 1; simp only [eq_iff_iff]; omega
  next := next_rep
  lowerBound := lowerBound_rep
  len := by rintro s t ⟨-, -, hs, -⟩; exact hs

theorem init_rep {g : Nat} (hg : g + 1 < maxSkippingGap) {l : List Nat} {rest : List UInt8}
    {old : SkipList} (hold : old.skippingGap = g + 1) (hne : l ≠ [])
    (hl : ∀ x ∈ l, x < 2 ^ 32) (hsort : l.Pairwise (· ≤ ·)) :
    ∃ s, init old ⟨l.length, ⟨skipBytes g l 0 ++ rest, 0⟩⟩ = .ok s ∧ Rep g s (Iter.start l) := by
  obtain ⟨x, xs, rfl⟩ : ∃ x xs, l = x :: xs := by cases l <;> simp_all
  obtain ⟨s0, hs0⟩ : ∃ s0, s0 = { old with
      input := ⟨skipBytes g (x :: xs) 0 ++ rest, 0⟩, size := (x :: xs).length, index := 0,
      currentSkipValue := 0, nextSkipPosition := 0 } := ⟨_, rfl⟩
  obtain ⟨s', hr, hat, h1, h2, h3⟩ := readSkipping_at hg (s := s0) (y := x) (ys := xs)
    (rest := rest) (by rw [hs0]; exact hold) (by rw [hs0]; rfl) (by rw [hs0]; simp)
    (hl x (by simp)) (by rw [hs0])
  have h1' : s'.index = 0 := by rw [h1, hs0]
  have h2' : s'.size = (x :: xs).length := by rw [h2, hs0]
  refine ⟨s', ?_, hg, hsort, h2', by rw [h1', h2']; simp [Iter.start], hl, ?_⟩
  · unfold init
    simp only
    rw [← hs0, hr]
  · intro c cs heq
    simp only [Iter.start, List.cons.injEq] at heq
    obtain ⟨rfl, rfl⟩ := heq
    refine ⟨xs.take g, xs.drop g, 0, by simp, hat, by omega, ?_⟩
    intro hne'
    have : g < xs.length := by
      by_contra hcon; exact hne' (List.drop_eq_nil_of_le (by omega))
    rw [h1', List.length_take]; omega

end SkipList
end Verif
