import Verif.Proofs.Damage
import Mathlib.Data.List.Perm.Basic
/- CPMerge and the searcher on an index whose bytes are arbitrary. -/
namespace Verif.Damage
open Verif Spec MergeCandidate

theorem good_bind {α β : Type} {x : Except Err α} {f : α → Except Err β} (h1 : Good x)
    (h2 : ∀ a, x = .ok a → Good (f a)) : Good (x >>= f) := by
  cases x with
  | error e => exact good_err (h1 e rfl)
  | ok a => exact h2 a rfl

theorem ok_bind {α β : Type} {x : Except Err α} {f : α → Except Err β} {b : β} (h : (x >>= f) = .ok b) :
    ∃ a, x = .ok a ∧ f a = .ok b := by
  cases x with
  | error e => simp [bind, Except.bind] at h
  | ok a => exact ⟨a, rfl, h⟩

/-- `Good`, and the value satisfies `P`. -/
def Fine {α : Type} (x : Except Err α) (P : α → Prop) : Prop := Good x ∧ ∀ a, x = .ok a → P a

theorem Fine.bind {α β : Type} {x : Except Err α} {f : α → Except Err β} {P : α → Prop} {Q : β → Prop} (h1 : Fine x P)
    (h2 : ∀ a, P a → Fine (f a) Q) : Fine (x >>= f) Q := by
  cases x with
  | error e => exact ⟨good_err (h1.1 e rfl), fun b hb => by simp [Bind.bind, Except.bind] at hb⟩
  | ok a => exact h2 a (h1.2 a rfl)

theorem Fine.pure {α : Type} {P : α → Prop} {a : α} (h : P a) : Fine (.ok a : Except Err α) P :=
  ⟨good_ok _, fun b hb => by simp only [Except.ok.injEq] at hb; exact hb ▸ h⟩

theorem Fine.err {α : Type} {P : α → Prop} {e : Err} (h : e.Reported) : Fine (.error e : Except Err α) P :=
  ⟨good_err h, fun b hb => by simp at hb⟩

theorem Fine.mono {α : Type} {x : Except Err α} {P Q : α → Prop} (h : Fine x P) (hpq : ∀ a, P a → Q a) : Fine x Q :=
  ⟨h.1, fun a ha => hpq a (h.2 a ha)⟩

theorem overlap_new_one (x : Nat) : overlap (new x 1) = 1 := by
  unfold overlap new
  rw [Nat.mod_mod_of_dvd _ (by norm_num : (2:ℕ) ^ 32 ∣ 2 ^ 64)]
  have : (x <<< 32 ||| 1 &&& 2 ^ 32 - 1) = x * 2 ^ 32 + 1 := by
    have h1 : (1 &&& 2 ^ 32 - 1) = 1 := by decide
    rw [h1, Nat.shiftLeft_eq, Nat.mul_comm, Nat.two_pow_add_eq_or_of_lt (by norm_num)]
  rw [this]
  omega

theorem increment_fine {c : MergeCandidate} {B : Nat} (hc : c.overlap ≤ B) (hB : B < maxOverlap) :
    Fine c.increment (fun c' => c'.overlap ≤ B + 1) := by
  unfold increment
  rw [if_neg (by omega)]
  apply Fine.pure
  unfold overlap at hc ⊢
  unfold maxOverlap at hB
  rw [Nat.mod_mod_of_dvd _ (by norm_num : (2:ℕ) ^ 32 ∣ 2 ^ 64)]
  omega

section
variable {σ κ : Type} [ListIter σ] (R : RobustIter σ)

theorem advance_fine {s : σ} {n : Nat} (h : R.Left s n) :
    Fine (advance s) (fun p => ∀ x, p.1 = some x → ∃ m, n = m + 1 ∧ R.Left p.2 m) := by
  unfold advance
  split
  · rename_i hh
    obtain ⟨h1, h2⟩ := R.next s n h hh
    generalize ListIter.next s = p at h1 h2
    obtain ⟨e | v, s'⟩ := p
    · exact Fine.err (h1 e rfl)
    · exact Fine.pure fun x _ => h2 v rfl
  · exact Fine.pure fun x hx => by simp at hx

/-- Work left in the inner loop. -/
def need (cs : List MergeCandidate) (cur : Option Nat) (n : Nat) : Nat := cs.length + if cur.isSome then n + 1 else 0

theorem scanLoop_fine {B : Nat} (hB : B < maxOverlap) : ∀ (fuel : Nat) (cs : List MergeCandidate) (cur : Option Nat) (s : σ)
    (n : Nat), (∀ x, cur = some x → R.Left s n) → need cs cur n ≤ fuel → (∀ c ∈ cs, c.overlap ≤ B) →
    Fine (scanLoop fuel cs cur s) (fun out => ∀ c ∈ out, c.overlap ≤ B + 1) := by
  intro fuel
  induction fuel with
  | zero =>
    intro cs cur s n h1 h2 h3
    cases cur with
    | some x => simp [need] at h2
    | none =>
      cases cs with
      | nil => exact Fine.pure (by simp)
      | cons c cs => simp [need] at h2
  | succ k ih =>
    intro cs cur s n h1 h2 h3
    have hadv : ∀ (x : Nat) (cs : List MergeCandidate), cur = some x → cs.length + n ≤ k → (∀ c ∈ cs, c.overlap ≤ B) →
        ∀ p : Option Nat × σ, (∀ x, p.1 = some x → ∃ m, n = m + 1 ∧ R.Left p.2 m) →
        Fine (scanLoop k cs p.1 p.2) (fun out => ∀ c ∈ out, c.overlap ≤ B + 1) := by
      intro x cs hx hlen hov p hp
      obtain ⟨cur', s'⟩ := p
      cases cur' with
      | none => exact ih cs none s' 0 (by simp) (by simp [need]; omega) hov
      | some y =>
        obtain ⟨m, e1, e2⟩ := hp y rfl
        exact ih cs (some y) s' m (fun _ _ => e2) (by simp [need]; omega) hov
    cases cs with
    | nil =>
      cases cur with
      | none => exact Fine.pure (by simp)
      | some x =>
        unfold scanLoop
        refine Fine.bind (advance_fine R (h1 x rfl)) fun p hp => ?_
        obtain ⟨cur', s'⟩ := p
        refine Fine.bind (hadv x [] rfl (by simp [need] at h2; simpa using h2) (by simp) _ hp) fun out hout => ?_
        apply Fine.pure
        intro c hc
        rcases List.mem_cons.1 hc with rfl | hc
        · rw [overlap_new_one]; omega
        · exact hout c hc
    | cons c cs =>
      have hc0 : c.overlap ≤ B := h3 c List.mem_cons_self
      have hcs : ∀ c ∈ cs, c.overlap ≤ B := fun c h => h3 c (List.mem_cons_of_mem _ h)
      cases cur with
      | none =>
        unfold scanLoop
        refine Fine.bind (ih cs none s 0 (by simp) (by simp [need] at h2 ⊢; omega) hcs) fun out hout => ?_
        apply Fine.pure
        intro c' hc
        rcases List.mem_cons.1 hc with rfl | hc
        · omega
        · exact hout c' hc
      | some x =>
        simp only [need, List.length_cons, Option.isSome_some, if_true] at h2
        unfold scanLoop
        split
        · refine Fine.bind (advance_fine R (h1 x rfl)) fun p hp => ?_
          obtain ⟨cur', s'⟩ := p
          refine Fine.bind (hadv x (c :: cs) rfl (by simp only [List.length_cons]; omega) h3 _ hp) fun out hout => ?_
          apply Fine.pure
          intro c' hc
          rcases List.mem_cons.1 hc with rfl | hc
          · rw [overlap_new_one]; omega
          · exact hout c' hc
        · split
          · refine Fine.bind (ih cs (some x) s n (fun _ _ => h1 x rfl) (by simp [need]; omega) hcs) fun out hout => ?_
            apply Fine.pure
            intro c' hc
            rcases List.mem_cons.1 hc with rfl | hc
            · omega
            · exact hout c' hc
          · refine Fine.bind (increment_fine hc0 hB) fun c1 hc1 => ?_
            refine Fine.bind (advance_fine R (h1 x rfl)) fun p hp => ?_
            obtain ⟨cur', s'⟩ := p
            refine Fine.bind (hadv x cs rfl (by omega) hcs _ hp) fun out hout => ?_
            apply Fine.pure
            intro c' hc
            rcases List.mem_cons.1 hc with rfl | hc
            · exact hc1
            · exact hout c' hc

/-- An iterator as it comes out of opening: it can be advanced at most `Len()` times. -/
def Opened (s : σ) : Prop := ∃ n, R.Left s n ∧ n ≤ ListIter.len s

include R in
theorem getCurrent_good (s : σ) : Good (getCurrent s) := by
  unfold getCurrent
  have h := R.get s
  generalize ListIter.get s = p at h
  split
  · exact good_ok _
  · exact good_ok _
  · exact good_err (h _ rfl)

theorem scanStep_fine {B : Nat} (hB : B < maxOverlap) {cands : List MergeCandidate} {s : σ} (hs : Opened R s)
    (hc : ∀ c ∈ cands, c.overlap ≤ B) : Fine (scanStep cands s) (fun out => ∀ c ∈ out, c.overlap ≤ B + 1) := by
  obtain ⟨n, h1, h2⟩ := hs
  unfold scanStep
  refine Fine.bind (P := fun _ => True) ⟨getCurrent_good R s, fun _ _ => trivial⟩ fun cur _ => ?_
  refine scanLoop_fine R hB _ _ _ _ n (fun _ _ => h1) ?_ hc
  unfold need
  split <;> omega

theorem scanLists_fine : ∀ (rid : List σ) (B : Nat) (cands : List MergeCandidate), (∀ s ∈ rid, Opened R s) →
    B + rid.length ≤ maxOverlap → (∀ c ∈ cands, c.overlap ≤ B) →
    Fine (scanLists rid cands) (fun out => ∀ c ∈ out, c.overlap ≤ B + rid.length)
  | [], B, cands, _, _, hc => Fine.pure hc
  | s :: rid, B, cands, hs, hB, hc => by
    simp only [List.length_cons] at hB
    unfold scanLists
    refine Fine.bind (scanStep_fine R (B := B) (by omega) (hs s List.mem_cons_self) hc) fun c' hc' => ?_
    refine (scanLists_fine rid (B + 1) c' (fun s h => hs s (List.mem_cons_of_mem _ h)) (by omega) hc').mono fun out h c hc => ?_
    have := h c hc
    simp only [List.length_cons]
    omega

theorem bumpIfHit_fine {c : MergeCandidate} {B p : Nat} (hc : c.overlap ≤ B) (hB : B < maxOverlap) {r : Except Err Nat}
    (hr : Good r) : Fine (bumpIfHit c p r) (fun c' => c'.overlap ≤ B + 1) := by
  unfold bumpIfHit
  split
  · split
    · exact increment_fine hc hB
    · exact Fine.pure (by omega)
  · exact Fine.pure (by omega)
  · exact Fine.err (hr _ rfl)

include R in
theorem probeLoop_fine {B T left : Nat} (hB : B < maxOverlap) : ∀ (cs : List MergeCandidate) (s : σ),
    (∀ c ∈ cs, c.overlap ≤ B) → Fine (probeLoop T left cs s) (fun out => ∀ c ∈ out, c.overlap ≤ B + 1)
  | [], s, _ => Fine.pure (by simp)
  | c :: cs, s, h => by
    unfold probeLoop
    dsimp only
    refine Fine.bind (bumpIfHit_fine (h c List.mem_cons_self) hB (R.lower s _)) fun c' hc' => ?_
    refine Fine.bind (probeLoop_fine hB cs _ fun c h' => h c (List.mem_cons_of_mem _ h')) fun rest hrest => ?_
    split
    · apply Fine.pure
      intro x hx
      rcases List.mem_cons.1 hx with rfl | hx
      · exact hc'
      · exact hrest x hx
    · exact Fine.pure hrest

include R in
theorem probeLists_fine {T : Nat} : ∀ (rid : List σ) (B : Nat) (cands : List MergeCandidate),
    B + rid.length ≤ maxOverlap → (∀ c ∈ cands, c.overlap ≤ B) → Good (probeLists T rid cands)
  | [], B, cands, _, hc => good_ok _
  | s :: rid, B, cands, hB, hc => by
    simp only [List.length_cons] at hB
    unfold probeLists
    split
    · exact good_ok _
    · have h := probeLoop_fine R (T := T) (left := rid.length) (show B < maxOverlap by omega) cands s hc
      exact good_bind h.1 fun c' hc' => probeLists_fine rid (B + 1) c' (by omega) (h.2 c' hc')

variable (I : κ → Prop) (collect : κ → MergeCandidate → κ × CollectRes Err)

/-- The collector works as long as its state satisfies `I`. -/
def Collects : Prop := ∀ k m, I k → I (collect k m).1 ∧ ∀ e, (collect k m).2 = .err e → e.Reported

variable {I collect}

theorem report_fine (hcol : Collects I collect) (T : Nat) : ∀ (cs : List MergeCandidate) (k : κ), I k →
    I (report collect T k cs).1 ∧ Answered (report collect T k cs).2
  | [], k, hk => ⟨hk, trivial⟩
  | c :: cs, k, hk => by
    unfold report
    split
    · obtain ⟨h1, h2⟩ := hcol k c hk
      generalize collect k c = p at h1 h2
      obtain ⟨k', _ | _ | e⟩ := p
      · exact report_fine hcol T cs k' h1
      · exact ⟨h1, trivial⟩
      · exact ⟨h1, h2 e rfl⟩
    · exact report_fine hcol T cs k hk

include R in
theorem intersectAll_good (item : Nat) : ∀ rest : List σ, Good (intersectAll item rest)
  | [] => good_ok _
  | s :: rest => by
    unfold intersectAll
    have h := R.lower s item
    generalize ListIter.lowerBound s item = p at h
    obtain ⟨e | v, s'⟩ := p
    · cases e <;> first | exact good_ok _ | exact good_err (h _ rfl)
    · dsimp only
      split
      · exact good_ok _
      · exact good_bind (intersectAll_good item rest) fun a _ => good_ok _

include R in
theorem intersectLoop_fine (hcol : Collects I collect) (N : Nat) : ∀ (fuel n item : Nat) (first : σ) (rest : List σ) (k : κ),
    R.Left first n → n + 1 ≤ fuel → I k →
    I (intersectLoop collect N fuel item first rest k).1 ∧ Answered (intersectLoop collect N fuel item first rest k).2 := by
  intro fuel
  induction fuel with
  | zero => intro n item first rest k h1 h2; omega
  | succ f ih =>
    intro n item first rest k h1 h2 hk
    unfold intersectLoop
    have hall := intersectAll_good R item rest
    generalize intersectAll item rest = p at hall
    obtain e | ⟨good, rest'⟩ := p
    · exact ⟨hk, hall e rfl⟩
    · dsimp only
      have hgo : ∀ k, I k →
          I (if !ListIter.hasNext first then (k, none)
            else match ListIter.next first with
              | (.error e, _) => (k, some e)
              | (.ok item', first') => intersectLoop collect N f item' first' rest' k).1 ∧
          Answered (if !ListIter.hasNext first then (k, none)
            else match ListIter.next first with
              | (.error e, _) => (k, some e)
              | (.ok item', first') => intersectLoop collect N f item' first' rest' k).2 := by
        intro k hk
        split
        · exact ⟨hk, trivial⟩
        · rename_i hh
          obtain ⟨a, b⟩ := R.next first n h1 (by simpa using hh)
          generalize ListIter.next first = p at a b
          obtain ⟨e | v, first'⟩ := p
          · exact ⟨hk, a e rfl⟩
          · obtain ⟨m, e1, e2⟩ := b v rfl
            exact ih m v first' rest' k e2 (by omega) hk
      cases good with
      | false => exact hgo k hk
      | true =>
        rw [if_pos rfl]
        obtain ⟨c1, c2⟩ := hcol k (MergeCandidate.new item N) hk
        generalize collect k (MergeCandidate.new item N) = p at c1 c2
        obtain ⟨k', _ | _ | e⟩ := p
        · exact hgo k' c1
        · exact ⟨c1, trivial⟩
        · exact ⟨c1, c2 e rfl⟩

include R in
/-- **CPMerge on damaged lists**: it ends, does not panic, and the collector is in a good state. -/
theorem cpMerge_fine (hcol : Collects I collect) {sort : List σ → List σ} (hsort : ∀ l, (sort l).Perm l) (rid : List σ)
    (hrid : ∀ s ∈ rid, Opened R s) (hlen : rid.length ≤ maxOverlap) (T : Int) (hT : T ≠ 0) (k : κ) (hk : I k) :
    I (cpMerge collect sort rid T k).1 ∧ Answered (cpMerge collect sort rid T k).2 := by
  have hrid' : ∀ s ∈ sort rid, Opened R s := fun s hs => hrid s ((hsort rid).subset hs)
  have hl' := (hsort rid).length_eq
  unfold cpMerge optimizerMerge
  dsimp only
  split
  · exact ⟨hk, trivial⟩
  · rename_i h0
    push Not at h0
    split
    · unfold intersect
      split
      · exact ⟨hk, trivial⟩
      · rename_i first rest heq
        have hf := hrid' first (by rw [heq]; exact List.mem_cons_self)
        have hg := R.get first
        generalize ListIter.get first = p at hg
        obtain e | item := p
        · exact ⟨hk, hg e rfl⟩
        · obtain ⟨n, n1, n2⟩ := hf
          exact intersectLoop_fine R hcol _ _ n item first rest k n1 (by omega) hk
    · unfold cpMergeMerge
      dsimp only
      rw [if_neg (by omega)]
      have hscan := scanLists_fine R ((sort rid).take ((sort rid).length + 1 - T.toNat)) 0 []
        (fun s hs => hrid' s (List.mem_of_mem_take hs)) (by rw [List.length_take]; omega) (by simp)
      generalize hq : scanLists ((sort rid).take ((sort rid).length + 1 - T.toNat)) [] = p at hscan
      obtain e | cands := p
      · exact ⟨hk, hscan.1 e rfl⟩
      · dsimp only
        have hc := hscan.2 cands rfl
        have hprobe := probeLists_fine R (T := T.toNat) ((sort rid).drop ((sort rid).length + 1 - T.toNat)) _ cands
          (by rw [List.length_take, List.length_drop]; omega) hc
        generalize probeLists T.toNat ((sort rid).drop ((sort rid).length + 1 - T.toNat)) cands = p at hprobe
        obtain e | cands' := p
        · exact ⟨hk, hprobe e rfl⟩
        · exact report_fine hcol _ _ _ hk

end

section
variable {ρ : Roaring} (R : ρ.Robust)

theorem filterTerms_has (t : Table) (T : Int) : ∀ (xs acc : List String), (∀ x ∈ acc, t.has x = true) →
    (∀ x ∈ filterTerms t T xs acc, t.has x = true) ∧ (filterTerms t T xs acc).length ≤ acc.length + xs.length
  | [], acc, h => ⟨h, by simp [filterTerms]⟩
  | x :: xs, acc, h => by
    unfold filterTerms
    split
    · split
      · rename_i hx
        obtain ⟨a, b⟩ := filterTerms_has t T xs (acc ++ [x]) (by
          intro y hy
          rcases List.mem_append.1 hy with hy | hy
          · exact h y hy
          · simp only [List.mem_singleton] at hy; exact hy ▸ hx)
        exact ⟨a, by simp only [List.length_append, List.length_cons, List.length_nil] at b ⊢; omega⟩
      · obtain ⟨a, b⟩ := filterTerms_has t T xs acc h
        exact ⟨a, by simp only [List.length_cons]; omega⟩
    · exact ⟨h, by simp⟩

theorem slice_good (r : BytesInput) (off n : Int) : Good (r.slice off n) := by
  unfold BytesInput.slice
  split
  · exact good_err rep_range
  · exact good_ok _

theorem openAll_fine (docs : BytesInput) (t : Table) (stale : Nat → SkipList) : ∀ xs : List String,
    (∀ x ∈ xs, t.has x = true) →
    Fine (openAll ρ docs t stale xs) (fun ls => ls.length = xs.length ∧ ∀ l ∈ ls, Opened (plRobust R) l)
  | [], _ => Fine.pure ⟨rfl, by simp⟩
  | x :: xs, h => by
    unfold openAll
    have hx : Fine (t.get docs x) (fun o => ∃ ctx, o = some ctx) := by
      unfold Table.get
      have := h x List.mem_cons_self
      unfold Table.has at this
      cases ht : t x with
      | none => rw [ht] at this; simp at this
      | some e =>
        refine Fine.bind (P := fun _ => True) ⟨slice_good _ _ _, fun _ _ => trivial⟩ fun r _ => ?_
        exact Fine.pure ⟨_, rfl⟩
    refine Fine.bind hx fun o ho => ?_
    obtain ⟨ctx, rfl⟩ := ho
    have hopen := openPList_good R (stale xs.length) ctx
    refine Fine.bind (P := fun l => Opened (plRobust R) l) ⟨hopen.1, hopen.2⟩ fun l hl => ?_
    refine Fine.bind (openAll_fine docs t stale xs fun y hy => h y (List.mem_cons_of_mem _ hy)) fun ls hls => ?_
    apply Fine.pure
    refine ⟨by simp [hls.1], ?_⟩
    intro l' hl'
    rcases List.mem_cons.1 hl' with rfl | hl'
    · exact hl
    · exact hls.2 l' hl'

include R in
/-- **Searching damaged data**. -/
theorem search_fine {κ : Type} {I : κ → Prop} {collect : κ → MergeCandidate → κ × CollectRes Err}
    (hcol : Collects I collect) {sort : List (PList ρ) → List (PList ρ)} (hsort : ∀ l, (sort l).Perm l)
    (docs : BytesInput) (stale : Nat → SkipList) (t : Table) (terms : List String) (hlen : terms.length ≤ maxOverlap)
    (T : Int) (hT : T ≠ 0 ∨ terms = []) (k : κ) (hk : I k) :
    I (search ρ (cpMerge collect sort) docs stale t terms T k).1 ∧
      Answered (search ρ (cpMerge collect sort) docs stale t terms T k).2 := by
  unfold search
  dsimp only
  obtain ⟨f1, f2⟩ := filterTerms_has t T terms [] (by simp)
  split
  · exact ⟨hk, trivial⟩
  · have h := openAll_fine R docs t stale (filterTerms t T terms []) f1
    generalize openAll ρ docs t stale (filterTerms t T terms []) = p at h
    obtain e | rid := p
    · exact ⟨hk, h.1 e rfl⟩
    · obtain ⟨h1, h2⟩ := h.2 rid rfl
      simp only [List.length_nil, Nat.zero_add] at f2
      by_cases hT0 : T = 0
      · have ht : terms = [] := by tauto
        subst ht
        have hr : rid = [] := List.eq_nil_of_length_eq_zero (by simp only [List.length_nil] at f2; omega)
        subst hr
        dsimp only
        unfold cpMerge optimizerMerge
        dsimp only
        rw [if_pos (by simp)]
        exact ⟨hk, trivial⟩
      · exact cpMerge_fine (plRobust R) hcol hsort rid h2 (by omega) T hT0 k hk

end
end Verif.Damage
