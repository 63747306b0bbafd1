import Verif.Proofs.IndexReader
import Verif.Props.Merger

namespace Verif
open Spec Props

/-! ### Good documents -/

theorem postings_sublist (docs : List Doc) (c : Nat) (t : String) :
    (postings docs c t).Sublist (docs.map Doc.id) := List.filter_sublist.map _

theorem plOk_of_good {docs : List Doc} (h : GoodDocs docs) (c : Nat) (t : String) (hne : postings docs c t ≠ []) :
    PlOk (postings docs c t) := by
  have hs := postings_sublist docs c t
  have hlt : (postings docs c t).Pairwise (· < ·) := by
    refine List.Pairwise.sublist hs ?_
    rw [List.pairwise_map]; exact h.ids
  refine ⟨hne, fun x hx => ?_, hlt.imp fun h => by omega, .inl hlt, ?_⟩
  · obtain ⟨d, hd, rfl⟩ := List.mem_map.1 (hs.subset hx)
    exact h.id32 d hd
  · have := hs.length_le
    have := h.count
    simp at *; omega

theorem maxCard_lt {docs : List Doc} {n : Nat} (hn : 0 < n) (h : ∀ d ∈ docs, d.terms.length + 1 < n) :
    maxCard docs < n := by
  induction docs with
  | nil => simpa [maxCard] using hn
  | cons d docs ih =>
    have h1 := h d (by simp)
    have h2 := ih fun d hd => h d (by simp [hd])
    simp only [maxCard, List.foldr_cons] at h2 ⊢
    omega

/-! ### Search -/

theorem filterTerms_spec (tab : Table) (T : Int) : ∀ (xs acc : List String),
    filterTerms tab T xs acc = acc ++ xs.filter tab.has ∨
      (((filterTerms tab T xs acc).length : Int) < T ∧ ((acc ++ xs.filter tab.has).length : Int) < T)
  | [], acc => .inl (by simp [filterTerms])
  | x :: xs, acc => by
    unfold filterTerms
    by_cases h : ((acc.length + (xs.length + 1) : Nat) : Int) ≥ T
    · rw [if_pos h]
      by_cases hx : tab.has x = true
      · have := filterTerms_spec tab T xs (acc ++ [x])
        simp only [hx, if_true, List.filter_cons_of_pos hx]
        simpa [List.append_assoc] using this
      · have := filterTerms_spec tab T xs acc
        rw [if_neg hx, List.filter_cons_of_neg hx]; exact this
    · rw [if_neg h]
      refine .inr ⟨by omega, ?_⟩
      have : ((x :: xs).filter tab.has).length ≤ (x :: xs).length := List.length_filter_le _ _
      simp only [List.length_append, List.length_cons] at this ⊢
      omega

theorem openAll_spec {ρ : Roaring} {L : ρ.Lawful} {oi : OpenIndex} {f : Nat → String → List Nat} {n : Nat}
    (h : IndexOk L oi f n) {c : Nat} {tab : Table} (ht : oi.table c = some tab) (stale : Nat → SkipList) :
    ∀ (xs : List String), (∀ x ∈ xs, f c x ≠ []) → ∃ rid, openAll ρ oi.docs tab stale xs = .ok rid ∧
      List.Forall₂ Opened rid (xs.map (f c))
  | [], _ => ⟨[], rfl, .nil⟩
  | x :: xs, hx => by
    obtain ⟨ctx, e1, h1⟩ := h.get c tab ht x (hx x (by simp))
    obtain ⟨s, e2, h2⟩ := h1 (stale xs.length)
    obtain ⟨rid, e3, h3⟩ := openAll_spec h ht stale xs fun y hy => hx y (by simp [hy])
    refine ⟨s :: rid, ?_, .cons (fun ops => (PList.sim L).run h2 ops) h3⟩
    simp only [openAll, e1, e2, e3, bind, Except.bind, pure, Except.pure]

/-- A merger that solves the T-occurrence problem. -/
def Solves {σ κ : Type} [ListIter σ] (collect : κ → MergeCandidate → κ × CollectRes Err)
    (merge : List σ → Int → κ → κ × Option Err) : Prop :=
  ∀ (rid : List σ) (ls : List (List Nat)) (T : Nat) (k : κ), 1 ≤ T → MergeInput rid ls → (∀ l ∈ ls, l ≠ []) →
    ∃ out, IsTOcc ls T out ∧ merge rid T k = feed collect k (packed out)

theorem occurrences_map_filter (f : String → List Nat) (p : String → Bool) (hp : ∀ x, p x = true ↔ f x ≠ [])
    (q : List String) (id : Nat) :
    occurrences ((q.filter p).map f) id = (q.filter fun t => decide (id ∈ f t)).length := by
  induction q with
  | nil => rfl
  | cons x q ih =>
    by_cases hx : p x = true
    · rw [List.filter_cons_of_pos hx, List.map_cons, occurrences_cons, ih]
      by_cases h : id ∈ f x
      · rw [List.filter_cons_of_pos (by simpa using h)]; simp [h]; omega
      · rw [List.filter_cons_of_neg (by simpa using h)]; simp [h]
    · rw [List.filter_cons_of_neg hx, ih]
      have : f x = [] := by by_contra hc; exact hx ((hp x).2 hc)
      rw [List.filter_cons_of_neg (by simp [this])]

theorem search_spec {ρ : Roaring} {L : ρ.Lawful} {κ : Type} {collect : κ → MergeCandidate → κ × CollectRes Err}
    {merge : List (PList ρ) → Int → κ → κ × Option Err} (hm : Solves collect merge)
    {oi : OpenIndex} {f : Nat → String → List Nat} {n : Nat} (h : IndexOk L oi f n)
    (hasc : ∀ c t, (f c t).Pairwise (· < ·)) (h32 : ∀ c t, ∀ x ∈ f c t, x < 2 ^ 32)
    {c : Nat} {tab : Table} (ht : oi.table c = some tab) (stale : Nat → SkipList)
    (q : List String) (hq : q.length < 2 ^ 32)
    (hov : ∀ id, (q.filter fun t => decide (id ∈ f c t)).length ≤ 0xFFFF) (T : Nat) (hT : 1 ≤ T) (k : κ) :
    ∃ out : List (Nat × Nat), out.Pairwise (fun a b => a.1 < b.1) ∧
      (∀ id m, (id, m) ∈ out ↔ m = (q.filter fun t => decide (id ∈ f c t)).length ∧ T ≤ m) ∧
      search ρ merge oi.docs stale tab q T k = feed collect k (packed out) := by
  have hle : ∀ id, (q.filter fun t => decide (id ∈ f c t)).length ≤ (q.filter tab.has).length := by
    intro id
    rw [← occurrences_map_filter (f c) tab.has (fun x => h.has c tab ht x)]
    simpa using occurrences_le ((q.filter tab.has).map (f c)) id
  have hspec := filterTerms_spec tab T q []
  simp only [List.nil_append] at hspec
  unfold search
  by_cases hlt : ((filterTerms tab T q []).length : Int) < T
  · simp only [hlt, if_true]
    have hcount : ((q.filter tab.has).length : Int) < T := by
      rcases hspec with e | e
      · rwa [← e]
      · exact e.2
    refine ⟨[], by simp, fun id m => ?_, rfl⟩
    simp only [List.not_mem_nil, false_iff, not_and]
    rintro rfl h'
    have := hle id
    omega
  · simp only [hlt, if_false]
    have e : filterTerms tab T q [] = q.filter tab.has := by
      rcases hspec with e | e
      · exact e
      · exact absurd e.1 hlt
    rw [e]
    have hne : ∀ x ∈ q.filter tab.has, f c x ≠ [] := fun x hx => (h.has c tab ht x).1 (List.mem_filter.1 hx).2
    obtain ⟨rid, e1, h1⟩ := openAll_spec h ht stale _ hne
    rw [e1]
    obtain ⟨out, ho, hm'⟩ := hm rid ((q.filter tab.has).map (f c)) T k hT
      ⟨h1, fun l hl => by obtain ⟨t, _, rfl⟩ := List.mem_map.1 hl; exact hasc c t,
        fun l hl => by obtain ⟨t, _, rfl⟩ := List.mem_map.1 hl; exact h32 c t,
        by have := List.length_filter_le tab.has q; simp; omega,
        fun id => by rw [occurrences_map_filter (f c) tab.has (fun x => h.has c tab ht x)]; exact hov id⟩
      (fun l hl => by obtain ⟨t, ht', rfl⟩ := List.mem_map.1 hl; exact hne t ht')
    refine ⟨out, ho.ascending, fun id m => ?_, hm'⟩
    rw [ho.exact, occurrences_map_filter (f c) tab.has (fun x => h.has c tab ht x)]
    constructor
    · rintro ⟨h1, h2, _⟩; exact ⟨h1, h2⟩
    · rintro ⟨h1, h2⟩; exact ⟨h1, h2, by omega⟩

/-! ### Crashes -/

theorem Crash.append {A B l : List DirOp} (h : Crash (A ++ B) l) :
    Crash A l ∨ ∃ l', l = A ++ l' ∧ Crash B l' := by
  induction A generalizing l with
  | nil => exact .inr ⟨l, rfl, h⟩
  | cons a A ih =>
    cases h with
    | now => exact .inl (.now _)
    | torn name bytes part ops hp => exact .inl (.torn _ _ _ _ hp)
    | later h1 =>
      rcases ih h1 with h2 | ⟨l', rfl, h2⟩
      · exact .inl (.later h2)
      · exact .inr ⟨l', rfl, h2⟩

theorem Crash.writes {n : String} {ws : List (List UInt8)} {l : List DirOp} (h : Crash (ws.map (DirOp.write n)) l) :
    ∃ ws' : List (List UInt8), l = ws'.map (DirOp.write n) ∧ ws'.flatten <+: ws.flatten := by
  induction ws generalizing l with
  | nil => cases h; exact ⟨[], rfl, by simp⟩
  | cons w ws ih =>
    cases h with
    | now => exact ⟨[], rfl, by simp⟩
    | torn name bytes part ops hp => exact ⟨[part], rfl, by simpa using hp.trans (List.prefix_append _ _)⟩
    | later h =>
      obtain ⟨ws', rfl, hp⟩ := ih h
      exact ⟨w :: ws', rfl, by simpa using hp⟩

theorem Crash.create {n : String} {ops l : List DirOp} (h : Crash (.create n :: ops) l) :
    l = [] ∨ ∃ l', l = .create n :: l' ∧ Crash ops l' := by
  cases h with
  | now => exact .inl rfl
  | later h => exact .inr ⟨_, rfl, h⟩

theorem Crash.complete (ops : List DirOp) : Crash ops ops := by
  induction ops with
  | nil => exact .now _
  | cons a ops ih => exact .later ih

theorem Crash.of_prefix {ops ops' : List DirOp} (h : ops' <+: ops) : Crash ops ops' := by
  obtain ⟨r, rfl⟩ := h
  induction ops' with
  | nil => exact .now _
  | cons a l ih => exact .later ih

theorem bufWrites_small (size : Nat) : ∀ (ps : List (List UInt8)) (buf : List UInt8),
    buf.length + ps.flatten.length ≤ size → (bufWrites size ps buf).1 = []
  | [], _, _ => rfl
  | p :: ps, buf, h => by
    simp only [List.flatten_cons, List.length_append] at h
    have hw : bufWrite size buf p = ([], buf ++ p) := by
      unfold bufWrite
      rw [if_pos (by omega)]
    simp only [bufWrites, hw, List.nil_append]
    exact bufWrites_small size ps _ (by simp only [List.length_append]; omega)

/-- State of the two files when the process dies during `Commit`. -/
theorem commit_crash {cfg : WriterConfig} (hne : cfg.header ≠ cfg.docs) (fs : Files) (dw hw : List (List UInt8))
    (hold : fs cfg.header = none ∨ dw.flatten.length ≤ 4096) {ops : List DirOp}
    (hc : Crash (commitOpsFS cfg dw hw) ops) :
    (ops.foldl applyFS fs = fs) ∨
    (ops.foldl applyFS fs) cfg.docs = some [] ∨ (ops.foldl applyFS fs) cfg.header = none ∨
    ∃ p d, (ops.foldl applyFS fs) cfg.header = some p ∧ (ops.foldl applyFS fs) cfg.docs = some d ∧
      p <+: hw.flatten ∧ d <+: dw.flatten := by
  obtain ⟨hd, hhd⟩ : ∃ x, bufWrites 4096 dw [] = x := ⟨_, rfl⟩
  obtain ⟨hh, hhh⟩ : ∃ x, bufWrites 4096 hw [] = x := ⟨_, rfl⟩
  have fd := bufWrites_flatten 4096 dw []
  have fh := bufWrites_flatten 4096 hw []
  simp only [List.nil_append, hhd, hhh] at fd fh
  have hsmall : dw.flatten.length ≤ 4096 → hd.1 = [] := fun h => by
    rw [← hhd]; exact bufWrites_small 4096 dw [] (by simpa using h)
  unfold commitOpsFS at hc
  simp only [hhd, hhh, List.cons_append, List.append_assoc] at hc
  have c0 : applyFS fs (.create cfg.docs) cfg.docs = some [] := by simp [applyFS, Files.update]
  have c0h : applyFS fs (.create cfg.docs) cfg.header = fs cfg.header := by simp [applyFS, Files.update, hne]
  rcases hc.create with rfl | ⟨l1, rfl, hc1⟩
  · exact .inl rfl
  right
  rw [List.foldl_cons]
  rcases hc1.append with hc2 | ⟨l2, rfl, hc2⟩
  · obtain ⟨ws, rfl, hp⟩ := hc2.writes
    obtain ⟨a1, a2⟩ := applyFS_writes cfg.docs ws _ c0
    rw [a1, a2 _ hne, c0h]
    rcases hold with h | h
    · exact .inr (.inl h)
    · left
      rw [hsmall h] at hp
      simp at hp
      rw [List.flatten_eq_nil_iff.2 hp]; rfl
  rw [List.foldl_append]
  obtain ⟨a1, a2⟩ := applyFS_writes cfg.docs hd.1 _ c0
  obtain ⟨fs1, hfs1⟩ : ∃ x, List.foldl applyFS (applyFS fs (.create cfg.docs)) (hd.1.map (DirOp.write cfg.docs)) = x :=
    ⟨_, rfl⟩
  rw [hfs1] at a1 a2 ⊢
  have a2 := a2 _ hne
  rw [c0h] at a2
  simp only [List.nil_append] at a1
  rcases hc2.create with rfl | ⟨l3, rfl, hc3⟩
  · simp only [List.foldl_nil]
    rw [a1, a2]
    rcases hold with h | h
    · exact .inr (.inl h)
    · left; rw [hsmall h]; rfl
  right; right
  rw [List.foldl_cons]
  have d0 : applyFS fs1 (.create cfg.header) cfg.header = some [] := by simp [applyFS, Files.update]
  have d0d : applyFS fs1 (.create cfg.header) cfg.docs = some hd.1.flatten := by
    rw [← a1]; simp [applyFS, Files.update, Ne.symm hne]
  have hpre : hd.1.flatten <+: dw.flatten := ⟨_, fd⟩
  rcases hc3.append with hc4 | ⟨l4, rfl, hc4⟩
  · obtain ⟨ws, rfl, hp⟩ := hc4.writes
    obtain ⟨b1, b2⟩ := applyFS_writes cfg.header ws _ d0
    refine ⟨_, _, b1, (b2 _ (Ne.symm hne)).trans d0d, ?_, hpre⟩
    rw [List.flatten_append, bufFlush_flatten, fh] at hp
    simpa using hp
  · rw [List.foldl_append]
    obtain ⟨b1, b2⟩ := applyFS_writes cfg.header (hh.1 ++ bufFlush hh.2) _ d0
    have b2 := (b2 _ (Ne.symm hne)).trans d0d
    obtain ⟨ws, rfl, hp⟩ := hc4.writes
    obtain ⟨e1, e2⟩ := applyFS_writes cfg.docs ws _ b2
    refine ⟨_, _, (e2 _ hne).trans b1, e1, ?_, ?_⟩
    · rw [List.flatten_append, bufFlush_flatten, fh]; simp
    · rw [bufFlush_flatten] at hp
      rw [← fd]
      exact (List.prefix_append_right_inj _).2 hp

theorem slice_prefix {d bytes : List UInt8} (h : d <+: bytes) (off n : Int) (j j' : Nat) :
    (∃ e, BytesInput.slice ⟨d, j⟩ off n = .error e) ∨ BytesInput.slice ⟨d, j⟩ off n = BytesInput.slice ⟨bytes, j'⟩ off n := by
  obtain ⟨r, rfl⟩ := h
  unfold BytesInput.slice
  by_cases hc : n < 0 ∨ off < 0 ∨ (d.length : Int) < off + n
  · left; rw [if_pos hc]; exact ⟨_, rfl⟩
  · right
    rw [if_neg hc, if_neg (by simp only [List.length_append]; omega)]
    simp only [Except.ok.injEq, BytesInput.mk.injEq, and_true]
    rw [List.drop_append_of_le_length (by omega), List.take_append_of_le_length (by simp; omega)]

end Verif
