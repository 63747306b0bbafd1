import Verif.Proofs.DamageMerge
import Verif.Proofs.SuggestFinal
import Verif.Proofs.Autocomplete
/- Opening an index from arbitrary files; an index whose document list was cut. -/
namespace Verif.Damage
open Verif Spec

/-! ### Opening -/

theorem buildTables_spec : ∀ (ds : List TermDesc) (ts : List (Option Table)),
    (∀ d ∈ ds, d.indice < ts.length) ∧ (∃ r, buildTables ds ts = .ok r) ∨
    (∃ d ∈ ds, ts.length ≤ d.indice) ∧ buildTables ds ts = .error .panicIndex
  | [], ts => .inl ⟨by simp, _, rfl⟩
  | d :: ds, ts => by
    unfold buildTables
    by_cases h : d.indice < ts.length
    · rw [List.getElem?_eq_getElem h]
      dsimp only
      have step : ∀ ts' : List (Option Table), ts'.length = ts.length →
          (∀ d' ∈ d :: ds, d'.indice < ts.length) ∧ (∃ r, buildTables ds ts' = .ok r) ∨
          (∃ d' ∈ d :: ds, ts.length ≤ d'.indice) ∧ buildTables ds ts' = .error .panicIndex := by
        intro ts' hl
        rcases buildTables_spec ds ts' with ⟨h1, h2⟩ | ⟨⟨d', h1, h1'⟩, h2⟩
        · left
          refine ⟨fun d' hd' => ?_, h2⟩
          rcases List.mem_cons.1 hd' with rfl | hd'
          · exact h
          · have := h1 d' hd'; omega
        · exact .inr ⟨⟨d', List.mem_cons_of_mem _ h1, by omega⟩, h2⟩
      split
      · exact step _ (by simp)
      · exact step _ (by simp)
    · rw [List.getElem?_eq_none (by omega)]
      exact .inr ⟨⟨d, List.mem_cons_self, by omega⟩, rfl⟩

theorem openFS_good (fs : Files) (n : String) : Good (openFS fs n) := by
  unfold openFS
  split
  · exact good_err ⟨rfl, by simp [loopBound]⟩
  · exact good_err ⟨rfl, by simp [loopBound]⟩
  · exact good_ok _

theorem openRAM_good (fs : Files) (n : String) : Good (openRAM fs n) := by
  unfold openRAM
  split
  · exact good_err ⟨rfl, by simp [loopBound]⟩
  · exact good_ok _

/-- What can happen when an index is opened. -/
theorem readIndex_cases {G : Gob} (hG : G.Robust) (cfg : WriterConfig) {opn : String → Except Err BytesInput}
    (ho : ∀ n, Good (opn n)) :
    (∃ oi, readIndex G cfg opn = .ok oi) ∨ (∃ e, readIndex G cfg opn = .error e ∧ e.Reported) ∨
    (readIndex G cfg opn = .error .panicIndex ∧ ∃ hin dn h, opn cfg.header = .ok hin ∧ opn cfg.docs = .ok dn ∧
      G.decode hin.buf = .ok h ∧ h.version = indexVersion ∧ ∃ d ∈ h.terms, h.indices ≤ d.indice) := by
  unfold readIndex
  cases h1 : opn cfg.header with
  | error e => exact .inr (.inl ⟨e, rfl, ho _ e h1⟩)
  | ok hin =>
    cases h2 : G.decode hin.buf with
    | error e => exact .inr (.inl ⟨e, by simp [bind, Except.bind, h2], hG _ _ h2⟩)
    | ok h =>
      by_cases hv : h.version = indexVersion
      · cases h3 : opn cfg.docs with
        | error e => exact .inr (.inl ⟨e, by simp [bind, Except.bind, h2, hv], ho _ e h3⟩)
        | ok dn =>
          rcases buildTables_spec h.terms (List.replicate h.indices none) with ⟨_, r, hr⟩ | ⟨hd, hr⟩
          · exact .inl ⟨⟨dn, r⟩, by simp [bind, Except.bind, h2, hv, hr, pure, Except.pure]⟩
          · refine .inr (.inr ⟨by simp [bind, Except.bind, h2, hv, hr], hin, dn, h, rfl, rfl, h2, hv, ?_⟩)
            obtain ⟨d, d1, d2⟩ := hd
            exact ⟨d, d1, by simpa using d2⟩
      · exact .inr (.inl ⟨.other "index version mismatch", by simp [bind, Except.bind, h2, hv], rfl, by simp [loopBound]⟩)

theorem readIndex_panics {G : Gob} (cfg : WriterConfig) {opn : String → Except Err BytesInput} {hin dn : BytesInput} {h : Header}
    (h1 : opn cfg.header = .ok hin) (h3 : opn cfg.docs = .ok dn) (h2 : G.decode hin.buf = .ok h)
    (hv : h.version = indexVersion) (hd : ∃ d ∈ h.terms, h.indices ≤ d.indice) :
    readIndex G cfg opn = .error .panicIndex := by
  unfold readIndex
  rcases buildTables_spec h.terms (List.replicate h.indices none) with ⟨hx, _⟩ | ⟨_, hr⟩
  · obtain ⟨d, d1, d2⟩ := hd
    have := hx d d1
    simp only [List.length_replicate] at this
    omega
  · simp [h1, h3, bind, Except.bind, h2, hv, hr]

/-! ### A cut document list -/

theorem slice_cut {buf : List UInt8} {i n : Nat} {off k : Int} {r : BytesInput}
    (h : BytesInput.slice ⟨buf.take n, i⟩ off k = .ok r) : BytesInput.slice ⟨buf, i⟩ off k = .ok r := by
  unfold BytesInput.slice at h ⊢
  split at h
  · simp at h
  · rename_i hc
    rw [List.length_take] at hc
    push Not at hc
    dsimp only
    rw [if_neg (by omega)]
    simp only [Except.ok.injEq] at h
    rw [← h]
    simp only [Except.ok.injEq, BytesInput.mk.injEq, and_true]
    rw [List.drop_take, List.take_take]
    congr 1
    omega

theorem openAll_cut {ρ : Roaring} {buf : List UInt8} {i n : Nat} {t : Table} {stale : Nat → SkipList} :
    ∀ (xs : List String) {ls : List (PList ρ)}, openAll ρ ⟨buf.take n, i⟩ t stale xs = .ok ls →
    openAll ρ ⟨buf, i⟩ t stale xs = .ok ls
  | [], ls, h => h
  | x :: xs, ls, h => by
    unfold openAll at h ⊢
    obtain ⟨o, h1, h2⟩ := ok_bind h
    have e1 : t.get ⟨buf, i⟩ x = .ok o := by
      unfold Table.get at h1 ⊢
      split at h1
      · exact h1
      · obtain ⟨r, r1, r2⟩ := ok_bind h1
        rw [slice_cut r1]
        exact r2
    rw [e1]
    cases o with
    | none => exact h2
    | some ctx =>
      dsimp only at h2
      obtain ⟨l, l1, l2⟩ := ok_bind h2
      obtain ⟨ls', m1, m2⟩ := ok_bind l2
      show (openPList ρ (stale xs.length) ctx >>= _) = _
      rw [l1]
      show (openAll ρ ⟨buf, i⟩ t stale xs >>= _) = _
      rw [openAll_cut xs m1]
      exact m2

theorem search_cut {κ : Type} {ρ : Roaring} {merge : List (PList ρ) → Int → κ → κ × Option Err} {buf : List UInt8} {i n : Nat}
    {stale : Nat → SkipList} {t : Table} {terms : List String} {T : Int} {k k' : κ}
    (h : search ρ merge ⟨buf.take n, i⟩ stale t terms T k = (k', none)) :
    search ρ merge ⟨buf, i⟩ stale t terms T k = (k', none) := by
  unfold search at h ⊢
  dsimp only at h ⊢
  split at h
  · rename_i hx
    rw [if_pos hx]; exact h
  · rename_i hx
    rw [if_neg hx]
    cases ho : openAll ρ ⟨buf.take n, i⟩ t stale (filterTerms t T terms []) with
    | error e => rw [ho] at h; simp at h
    | ok rid =>
      rw [ho] at h
      rw [openAll_cut _ ho]
      exact h

/-- The tables of two indexes whose document lists differ only by a cut. -/
theorem built_cut {κ : Type} {ρ : Roaring} {sort : List (PList ρ) → List (PList ρ)} {oi : OpenIndex} {n : Nat}
    {q : List String} (b : Int) :
    ((builtIndices (κ := κ) ρ sort (oi.cut n) q).get b = none ↔ (builtIndices (κ := κ) ρ sort oi q).get b = none) ∧
    ∀ f, (builtIndices (κ := κ) ρ sort (oi.cut n) q).get b = some f → ∃ f', (builtIndices (κ := κ) ρ sort oi q).get b = some f' ∧
      ∀ env collect T k k', f env collect T k = (k', none) → f' env collect T k = (k', none) := by
  unfold builtIndices
  dsimp only
  have ht : (oi.cut n).table b.toNat = oi.table b.toNat := rfl
  rw [ht]
  split
  · cases hq : oi.table b.toNat with
    | none => exact ⟨Iff.rfl, fun f hf => by simp at hf⟩
    | some tab =>
      refine ⟨by simp, fun f hf => ⟨_, rfl, ?_⟩⟩
      simp only [Option.map_some, Option.some.injEq] at hf
      subst hf
      intro env collect T k k' h
      exact search_cut h
  · exact ⟨Iff.rfl, fun f hf => by simp at hf⟩

section
variable {S : Type} [LinearOrder S] [Inhabited S]

/-- No goroutine has returned an error. -/
def Clean (ws : List (Worker S)) : Prop := ∀ w ∈ ws, w.err? = none

omit [LinearOrder S] [Inhabited S] in
theorem clean_set {ws : List (Worker S)} {i : Nat} {w w' : Worker S} (hw : ws[i]? = some w) (h0 : w.err? = none)
    (h : Clean (ws.set i w')) : Clean ws := by
  intro x hx
  obtain ⟨j, hj⟩ := List.mem_iff_getElem?.1 hx
  by_cases hij : i = j
  · subst hij
    rw [hw] at hj
    simp only [Option.some.injEq] at hj
    rw [← hj]; exact h0
  · exact h x (List.mem_iff_getElem?.2 ⟨j, by rw [List.getElem?_set_ne hij]; exact hj⟩)

variable {F : FloatOps S} {M : Metric S} {ρ : Roaring} {sort : List (PList ρ) → List (PList ρ)} {oi : OpenIndex} {n : Nat}
  {q : List String} {α : S} {topK : Int}

omit [LinearOrder S] [Inhabited S] in
theorem skips_cut {a : S} {b : Int} : (suggestCall F M ρ sort (oi.cut n) q α topK).skips a b ↔
    (suggestCall F M ρ sort oi q α topK).skips a b := by
  have h := (built_cut (κ := TopKQueue S) (ρ := ρ) (sort := sort) (oi := oi) (n := n) (q := q) b).1
  unfold SConf.skips
  exact or_congr Iff.rfl (or_congr Iff.rfl (or_congr Iff.rfl h))

/-- A run on the cut index in which no search failed is a run on the whole index. -/
theorem reachable_cut {s : SState S} (h : (suggestCall F M ρ sort (oi.cut n) q α topK).Reachable s) (hp : s.panicked = none)
    (hc : Clean s.workers) : (suggestCall F M ρ sort oi q α topK).Reachable s := by
  induction h with
  | start h => exact .start h
  | step hre hst ih =>
    cases hst with
    | send h1 h2 h3 => exact .step (ih h1 hc) (.send h1 h2 h3)
    | handoff h1 h2 h3 h4 => exact .step (ih h1 (clean_set h4 rfl hc)) (.handoff h1 h2 h3 h4)
    | close h1 h2 h3 => exact .step (ih h1 hc) (.close h1 h2 h3)
    | recv h1 h2 h3 => exact .step (ih h1 (clean_set h3 rfl hc)) (.recv h1 h2 h3)
    | exit h1 h2 h3 h4 => exact .step (ih h1 (clean_set h4 rfl hc)) (.exit h1 h2 h3 h4)
    | load h1 h2 => exact .step (ih h1 (clean_set h2 rfl hc)) (.load h1 h2)
    | skip h1 h2 h3 => exact .step (ih h1 (clean_set h2 rfl hc)) (.skip h1 h2 (skips_cut.1 h3))
    | search env h1 h2 h3 h4 h5 h6 =>
      obtain ⟨f', g1, g2⟩ := (built_cut _).2 _ h4
      exact .step (ih h1 (clean_set h2 rfl hc)) (.search env h1 h2 (fun h => h3 (skips_cut.2 h)) g1 h5 (g2 _ _ _ _ _ h6))
    | searchErr env h1 h2 h3 h4 h5 h6 h7 =>
      rename_i e i
      have := hc (.done (some e)) (List.mem_iff_getElem?.2 ⟨i, getElem?_set_self' h2⟩)
      simp [Worker.err?] at this
    | searchPanic env h1 h2 h3 h4 h5 h6 h7 => simp at hp
    | commit h1 h2 h3 h4 => exact .step (ih h1 (clean_set h2 rfl hc)) (.commit h1 h2 h3 h4)
    | commitPanic h1 h2 h3 h4 => simp at hp
    | raise h1 h2 => exact .step (ih h1 (clean_set h2 rfl hc)) (.raise h1 h2)
    | unlock h1 h2 => exact .step (ih h1 (clean_set h2 rfl hc)) (.unlock h1 h2)

/-- An answer of `Suggest` on a cut index is an answer on the whole index. -/
theorem suggest_cut {r : List (Candidate S)} (h : SuggestReturns (suggestCall F M ρ sort (oi.cut n) q α topK) (.ok r)) :
    SuggestReturns (suggestCall F M ρ sort oi q α topK) (.ok r) := by
  generalize hx : (Except.ok r : Except Err _) = x at h
  cases h with
  | empty h => exact .empty h
  | @run s h hre hfin =>
    refine .run h (reachable_cut hre hfin.1 ?_) hfin
    unfold SState.result at hx
    split at hx
    · simp at hx
    · rename_i he
      intro w hw
      by_contra hne
      obtain ⟨e, he'⟩ := Option.ne_none_iff_exists'.1 hne
      have : e ∈ s.workers.filterMap Worker.err? := List.mem_filterMap.2 ⟨w, hw, he'⟩
      rw [he] at this
      simp at this

end

section
/-- No goroutine has returned an error. -/
def AClean {κ : Type} (ws : List (AWorker κ)) : Prop := ∀ w ∈ ws, w.err? = none

theorem aclean_set {κ : Type} {ws : List (AWorker κ)} {i : Nat} {w w' : AWorker κ} (hw : ws[i]? = some w) (h0 : w.err? = none)
    (h : AClean (ws.set i w')) : AClean ws := by
  intro x hx
  obtain ⟨j, hj⟩ := List.mem_iff_getElem?.1 hx
  by_cases hij : i = j
  · subst hij
    rw [hw] at hj
    simp only [Option.some.injEq] at hj
    rw [← hj]; exact h0
  · exact h x (List.mem_iff_getElem?.2 ⟨j, by rw [List.getElem?_set_ne hij]; exact hj⟩)

variable {ρ : Roaring} {sort : List (PList ρ) → List (PList ρ)} {oi : OpenIndex} {n : Nat} {q : List String} {limit : Int}

theorem areachable_cut {s : AState (List MergeCandidate) ℚ} (h : (autocompleteCall ρ sort (oi.cut n) q limit).Reachable s)
    (hp : s.panicked = none) (hc : AClean s.workers) : (autocompleteCall ρ sort oi q limit).Reachable s := by
  induction h with
  | start h => exact .start h
  | step hre hst ih =>
    cases hst with
    | skip h1 h2 h3 => exact .step (ih h1 hc) (.skip h1 h2 ((built_cut _).1.1 h3))
    | spawn h1 h2 h3 =>
      refine .step (ih h1 fun w hw => hc w (List.mem_append_left _ hw)) (.spawn h1 h2 fun h => h3 ((built_cut _).1.2 h))
    | search env h1 h2 h3 h4 =>
      obtain ⟨f', g1, g2⟩ := (built_cut _).2 _ h3
      exact .step (ih h1 (aclean_set h2 rfl hc)) (.search env h1 h2 g1 (g2 _ _ _ _ _ h4))
    | searchErr env h1 h2 h3 h4 h5 =>
      rename_i e i
      have := hc (.done (some e)) (List.mem_iff_getElem?.2 ⟨i, by
        rw [List.getElem?_set_self (List.getElem?_eq_some_iff.1 h2).1]⟩)
      simp [AWorker.err?] at this
    | searchPanic env h1 h2 h3 h4 h5 => simp at hp
    | commit h1 h2 h3 => exact .step (ih h1 (aclean_set h2 rfl hc)) (.commit h1 h2 h3)
    | commitPanic h1 h2 h3 => simp at hp

/-- An answer of `Autocomplete` on a cut index is an answer on the whole index. -/
theorem autocomplete_cut {r : List (Candidate ℚ)} (h : AutocompleteReturns (autocompleteCall ρ sort (oi.cut n) q limit) (.ok r)) :
    AutocompleteReturns (autocompleteCall ρ sort oi q limit) (.ok r) := by
  obtain ⟨s, hre, hfin, hx⟩ := h
  refine ⟨s, areachable_cut hre hfin.1 ?_, hfin, hx⟩
  unfold AState.result at hx
  split at hx
  · simp at hx
  · rename_i he
    intro w hw
    by_contra hne
    obtain ⟨e, he'⟩ := Option.ne_none_iff_exists'.1 hne
    have : e ∈ s.workers.filterMap AWorker.err? := List.mem_filterMap.2 ⟨w, hw, he'⟩
    rw [he] at this
    simp at this

end

/-! ### A cut file -/

/-- The files with the file `name` cut after `n` bytes. -/
theorem readIndex_cut {G : Gob} {cfg : WriterConfig} {opn opn' : String → Except Err BytesInput} {n : Nat} {oi' : OpenIndex}
    (h1 : opn' cfg.header = opn cfg.header)
    (h2 : ∀ d', opn' cfg.docs = .ok d' → ∃ d, opn cfg.docs = .ok d ∧ d' = ⟨d.buf.take n, d.i⟩)
    (h : readIndex G cfg opn' = .ok oi') : ∃ oi, readIndex G cfg opn = .ok oi ∧ oi' = oi.cut n := by
  unfold readIndex at h ⊢
  rw [h1] at h
  obtain ⟨hin, a1, h⟩ := ok_bind h
  obtain ⟨hd, a2, h⟩ := ok_bind h
  split at h
  · simp at h
  · rename_i hv
    obtain ⟨d', a3, h⟩ := ok_bind h
    obtain ⟨t, a4, h⟩ := ok_bind h
    obtain ⟨d, b1, rfl⟩ := h2 _ a3
    simp only [pure, Except.pure, Except.ok.injEq] at h
    refine ⟨⟨d, t⟩, ?_, ?_⟩
    · simp [a1, bind, Except.bind, a2, hv, b1, a4, pure, Except.pure]
    · rw [← h]; rfl

end Verif.Damage
