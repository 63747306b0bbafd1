import Verif.Proofs.IndexWriter

namespace Verif
open Spec

/-- A posting list the codec handles. -/
structure PlOk (l : List Nat) : Prop where
  ne : l ≠ []
  u32 : ∀ x ∈ l, x < 2 ^ 32
  sorted : l.Pairwise (· ≤ ·)
  kind : l.Pairwise (· < ·) ∨ l.length ≤ 256
  len : l.length < 2 ^ 32

/-- `d` describes where the posting list of the entry `e` lies in `bytes`. -/
def DescOf (ρ : Roaring) (offset : Nat) (bytes : List UInt8) (e : Nat × String × List Nat) (d : TermDesc) : Prop :=
  ∃ pre b post, bytes = pre ++ b ++ post ∧ codecEncode ρ e.2.2 = .ok (b, b.length) ∧ b ≠ [] ∧
    d = ⟨e.2.1, u32 e.1, u32 b.length, u32 (offset + pre.length), u32 e.2.2.length⟩

theorem forall₂_imp_mem {α β} {R Q : α → β → Prop} {l : List α} {m : List β} (h : List.Forall₂ R l m)
    (hi : ∀ a ∈ l, ∀ b ∈ m, R a b → Q a b) : List.Forall₂ Q l m := by
  induction h with
  | nil => exact .nil
  | cons h1 _ ih =>
    exact .cons (hi _ (by simp) _ (by simp) h1)
      (ih fun a ha b hb => hi a (by simp [ha]) b (by simp [hb]))

theorem forall₂_left {α β} {R : α → β → Prop} {l : List α} {m : List β} (h : List.Forall₂ R l m) :
    ∀ a ∈ l, ∃ b ∈ m, R a b := by
  induction h with
  | nil => simp
  | cons h1 _ ih =>
    intro a ha
    rcases List.mem_cons.1 ha with rfl | ha
    · exact ⟨_, by simp, h1⟩
    · obtain ⟨b, hb, hr⟩ := ih a ha; exact ⟨b, by simp [hb], hr⟩

theorem forall₂_right {α β} {R : α → β → Prop} {l : List α} {m : List β} (h : List.Forall₂ R l m) :
    ∀ b ∈ m, ∃ a ∈ l, R a b := by
  induction h with
  | nil => simp
  | cons h1 _ ih =>
    intro a ha
    rcases List.mem_cons.1 ha with rfl | ha
    · exact ⟨_, by simp, h1⟩
    · obtain ⟨b, hb, hr⟩ := ih a ha; exact ⟨b, by simp [hb], hr⟩

theorem forall₂_map_eq {α β γ} {R : α → β → Prop} {f : α → γ} {g : β → γ} {l : List α} {m : List β}
    (h : List.Forall₂ R l m) (hi : ∀ a b, R a b → f a = g b) : l.map f = m.map g := by
  induction h with
  | nil => rfl
  | cons h1 _ ih => simp [ih, hi _ _ h1]

theorem commitEntries_spec {ρ : Roaring} (L : ρ.Lawful) : ∀ (es : List (Nat × String × List Nat)) (offset : Nat),
    (∀ e ∈ es, PlOk e.2.2) → ∃ bytes ds, commitEntries ρ es offset = .ok (bytes, ds) ∧
      List.Forall₂ (DescOf ρ offset bytes) es ds
  | [], offset, _ => ⟨[], [], rfl, .nil⟩
  | (i, t, pl) :: es, offset, h => by
    have hp : PlOk pl := h (i, t, pl) (by simp)
    obtain ⟨b, _, e1, _, _⟩ := openPList_rep L ⟨⟨[], 0⟩, 0, 0, 0, 0, 0, 0, false⟩ hp.ne hp.u32 hp.sorted hp.kind
    have hb := codecEncode_ne L hp.ne hp.u32 hp.sorted hp.kind e1
    obtain ⟨bytes, ds, e2, h2⟩ := commitEntries_spec L es (offset + b.length) (fun e he => h e (by simp [he]))
    refine ⟨b ++ bytes, ⟨t, u32 i, u32 b.length, u32 offset, u32 pl.length⟩ :: ds, ?_, .cons ?_ ?_⟩
    · simp only [commitEntries, e1, bind, Except.bind, e2, pure, Except.pure]
    · exact ⟨[], b, bytes, by simp, e1, hb, by simp⟩
    · refine h2.imp ?_
      rintro e d ⟨pre, b', post, rfl, q1, q2, rfl⟩
      exact ⟨b ++ pre, b', post, by simp, q1, q2, by simp [Nat.add_assoc]⟩

/-- Table of cardinality `i`. -/
def tabAt (ts : List (Option Table)) (i : Nat) : Option Table := (ts[i]?).getD none

/-- Entry of term `t` at cardinality `i`. -/
def entryAt (ts : List (Option Table)) (i : Nat) (t : String) : Option Entry := (tabAt ts i).bind (· t)

theorem buildTables_spec : ∀ (ds : List TermDesc) (ts : List (Option Table)),
    (∀ d ∈ ds, d.indice < ts.length ∧ d.bytesSize ≠ 0) →
    ds.Pairwise (fun a b => (a.indice, a.term) ≠ (b.indice, b.term)) →
    ∃ ts', buildTables ds ts = .ok ts' ∧ ts'.length = ts.length ∧
      (∀ i, tabAt ts' i = none ↔ tabAt ts i = none ∧ ∀ d ∈ ds, d.indice ≠ i) ∧
      (∀ d ∈ ds, entryAt ts' d.indice d.term = some ⟨d.bytesSize, d.position, d.listLen⟩) ∧
      (∀ i t, (∀ d ∈ ds, ¬ (d.indice = i ∧ d.term = t)) → entryAt ts' i t = entryAt ts i t)
  | [], ts, _, _ => ⟨ts, rfl, rfl, by simp, by simp, by simp⟩
  | d :: ds, ts, h, hp => by
    obtain ⟨hi, hs⟩ := h d (by simp)
    obtain ⟨hp1, hp2⟩ := List.pairwise_cons.1 hp
    have hget : ts[d.indice]? = some ts[d.indice] := List.getElem?_eq_getElem hi
    obtain ⟨ts1, hts1⟩ : ∃ ts1, ts1 = ts.set d.indice (some fun x =>
        if x = d.term then some (⟨d.bytesSize, d.position, d.listLen⟩ : Entry)
        else (ts[d.indice].getD (fun _ => none)) x) := ⟨_, rfl⟩
    have hlen : ts1.length = ts.length := by rw [hts1, List.length_set]
    have ht1 : ∀ i, i ≠ d.indice → tabAt ts1 i = tabAt ts i := by
      intro i hne
      rw [hts1]; unfold tabAt
      rw [List.getElem?_set_ne (Ne.symm hne)]
    have ht2 : tabAt ts1 d.indice = some fun x =>
        if x = d.term then some (⟨d.bytesSize, d.position, d.listLen⟩ : Entry)
        else (ts[d.indice].getD (fun _ => none)) x := by
      rw [hts1]; unfold tabAt
      rw [List.getElem?_set_self hi]; rfl
    obtain ⟨ts', e, a1, a2, a3, a4⟩ := buildTables_spec ds ts1
      (fun d' hd' => by rw [hlen]; exact h d' (by simp [hd'])) hp2
    have hval : ∀ i t, ¬ (d.indice = i ∧ d.term = t) → entryAt ts1 i t = entryAt ts i t := by
      intro i t hn
      unfold entryAt
      by_cases hieq : i = d.indice
      · subst hieq
        have : ¬ t = d.term := fun e => hn ⟨rfl, e.symm⟩
        rw [ht2]
        have ht0 : tabAt ts d.indice = ts[d.indice] := by unfold tabAt; rw [hget]; rfl
        rw [ht0]
        simp only [Option.bind_some, this, if_false]
        cases ts[d.indice] <;> rfl
      · rw [ht1 i hieq]
    refine ⟨ts', ?_, by omega, ?_, ?_, ?_⟩
    · unfold buildTables
      rw [hget]
      simp only [hs, if_false]
      rw [← hts1]; exact e
    · intro i
      rw [a2]
      by_cases hieq : i = d.indice
      · subst hieq
        rw [ht2]; simp
      · rw [ht1 i hieq]
        simp only [List.mem_cons, forall_eq_or_imp]
        exact ⟨fun h => ⟨h.1, fun e => hieq e.symm, h.2⟩, fun h => ⟨h.1, h.2.2⟩⟩
    · intro d' hd'
      rcases List.mem_cons.1 hd' with rfl | hd'
      · rw [a4 _ _ (fun d2 hd2 heq => hp1 d2 hd2 (by rw [heq.1, heq.2]))]
        unfold entryAt
        rw [ht2]; simp
      · exact a3 d' hd'
    · intro i t hn
      rw [a4 i t (fun d2 hd2 => hn d2 (by simp [hd2])), hval i t (hn d (by simp))]

theorem mem_commitOrder {order : Nat → TermMap → TermMap} {ix : Indices} {i : Nat} {t : String} {pl : List Nat} :
    (i, t, pl) ∈ commitOrder order ix ↔ i < ix.length ∧ (t, pl) ∈ order i (mapAt ix i) := by
  unfold commitOrder
  rw [List.mem_flatMap]
  constructor
  · rintro ⟨⟨m, j⟩, hm, he⟩
    obtain ⟨e, he1, he2⟩ := List.mem_map.1 he
    simp only [Prod.mk.injEq] at he2
    obtain ⟨rfl, rfl⟩ := he2
    have := List.mem_zipIdx_iff_getElem?.1 hm
    simp only at this
    refine ⟨(List.getElem?_eq_some_iff.1 this).1, ?_⟩
    unfold mapAt
    rw [this]; exact he1
  · rintro ⟨hi, hm⟩
    refine ⟨(ix[i], i), List.mem_zipIdx_iff_getElem?.2 (List.getElem?_eq_getElem hi), ?_⟩
    unfold mapAt at hm
    rw [List.getElem?_eq_getElem hi] at hm
    exact List.mem_map.2 ⟨(t, pl), hm, rfl⟩

theorem commitOrder_nodup {order : Nat → TermMap → TermMap} (ho : ∀ i m, (order i m).Perm m) {ix : Indices}
    (h : ∀ c, ((mapAt ix c).map Prod.fst).Nodup) :
    (commitOrder order ix).Pairwise (fun a b => (a.1, a.2.1) ≠ (b.1, b.2.1)) := by
  unfold commitOrder
  rw [List.flatMap, List.pairwise_flatten]
  constructor
  · intro l hl
    obtain ⟨⟨m, i⟩, hm, rfl⟩ := List.mem_map.1 hl
    rw [List.pairwise_map]
    have hget := List.mem_zipIdx_iff_getElem?.1 hm
    simp only at hget
    have hat : mapAt ix i = m.getD [] := by unfold mapAt; rw [hget]; rfl
    have hn := h i
    rw [hat] at hn
    have hn' := ((ho i (m.getD [])).map Prod.fst).nodup_iff.2 hn
    rw [List.Nodup, List.pairwise_map] at hn'
    exact hn'.imp (fun hne heq => hne (Prod.mk.inj heq).2)
  · rw [List.pairwise_map]
    have hz : (ix.zipIdx.map Prod.snd).Nodup := by
      rw [List.zipIdx_map_snd]; exact List.nodup_range'
    rw [List.Nodup, List.pairwise_map] at hz
    refine hz.imp ?_
    rintro ⟨m, i⟩ ⟨m', j⟩ hne a ha b hb heq
    obtain ⟨x, _, rfl⟩ := List.mem_map.1 ha
    obtain ⟨y, _, rfl⟩ := List.mem_map.1 hb
    exact hne (Prod.mk.inj heq).1

/-- The opened index holds exactly the posting lists `f`. -/
structure IndexOk {ρ : Roaring} (L : ρ.Lawful) (oi : OpenIndex) (f : Nat → String → List Nat) (n : Nat) : Prop where
  size : oi.size = n
  absent : ∀ c, oi.table c = none ↔ ∀ t, f c t = []
  has : ∀ c tab, oi.table c = some tab → ∀ t, tab.has t = true ↔ f c t ≠ []
  get : ∀ c tab, oi.table c = some tab → ∀ t, f c t ≠ [] → ∃ ctx, tab.get oi.docs t = .ok (some ctx) ∧
    ∀ stale, ∃ s, openPList ρ stale ctx = .ok s ∧ PList.Rep L s (Iter.start (f c t))
  listSize : ∀ c tab, oi.table c = some tab → ∀ t, f c t ≠ [] → ∀ ctx, tab.get oi.docs t = .ok (some ctx) →
    ctx.listSize = (f c t).length

theorem slice_mid {pre b post : List UInt8} {j : Nat} :
    BytesInput.slice ⟨pre ++ b ++ post, j⟩ (pre.length : Nat) (b.length : Nat) = .ok ⟨b, 0⟩ := by
  unfold BytesInput.slice
  rw [if_neg (by simp only [List.length_append]; omega)]
  simp

theorem u32_of_lt {n : Nat} (h : n < 2 ^ 32) : u32 n = n := Nat.mod_eq_of_lt h

/-- Tables built from a header that describes `f`. -/
theorem commitData_spec {ρ : Roaring} (L : ρ.Lawful) {f : Nat → String → List Nat} {ix : Indices}
    {order : Nat → TermMap → TermMap} (ho : ∀ i m, (order i m).Perm m)
    (hix : ∀ c, MapOk (mapAt ix c) (f c)) (hpl : ∀ c t, f c t ≠ [] → PlOk (f c t))
    (hn : ix.length < 2 ^ 32) :
    ∃ bytes h, commitData ρ order ix = .ok (bytes, h) ∧ h.version = indexVersion ∧
      (bytes.length < 2 ^ 32 → ∃ tables, buildTables h.terms (List.replicate h.indices none) = .ok tables ∧
        ∀ (j : Nat) (rest : List UInt8), IndexOk L ⟨⟨bytes ++ rest, j⟩, tables⟩ f ix.length) := by
  have hmap : ∀ i t pl, (i, t, pl) ∈ commitOrder order ix ↔ i < ix.length ∧ pl = f i t ∧ pl ≠ [] := by
    intro i t pl
    rw [mem_commitOrder, (ho i _).mem_iff, (hix i).mem]
  have hout : ∀ i, ¬ i < ix.length → ∀ t, f i t = [] := by
    intro i hi t
    by_contra hc
    have := ((hix i).mem t (f i t)).2 ⟨rfl, hc⟩
    unfold mapAt at this
    rw [List.getElem?_eq_none (by omega)] at this
    simp at this
  obtain ⟨bytes, ds, e, hds⟩ := commitEntries_spec L (commitOrder order ix) 0 (by
    rintro ⟨i, t, pl⟩ he
    obtain ⟨_, h1, h2⟩ := (hmap i t pl).1 he
    simp only
    rw [h1] at h2 ⊢
    exact hpl i t h2)
  refine ⟨bytes, ⟨indexVersion, u32 ix.length, ds⟩, ?_, rfl, ?_⟩
  · simp only [commitData, e, bind, Except.bind, pure, Except.pure]
  · intro hlen
    simp only [u32_of_lt hn]
    -- the descriptions without truncation
    have hds' : List.Forall₂ (fun (e : Nat × String × List Nat) (d : TermDesc) =>
        ∃ pre b post, bytes = pre ++ b ++ post ∧ codecEncode ρ e.2.2 = .ok (b, b.length) ∧ b ≠ [] ∧
          d = ⟨e.2.1, e.1, b.length, pre.length, e.2.2.length⟩) (commitOrder order ix) ds := by
      refine forall₂_imp_mem hds ?_
      rintro ⟨i, t, pl⟩ he d _ ⟨pre, b, post, h1, h2, h3, rfl⟩
      obtain ⟨q1, q2, q3⟩ := (hmap i t pl).1 he
      refine ⟨pre, b, post, h1, h2, h3, ?_⟩
      have hl : bytes.length = pre.length + b.length + post.length := by
        rw [h1, List.length_append, List.length_append]
      have hpl' : pl.length < 2 ^ 32 := by rw [q2] at q3 ⊢; exact (hpl i t q3).len
      simp only [Nat.zero_add]
      rw [u32_of_lt (by omega), u32_of_lt (by omega), u32_of_lt (by omega), u32_of_lt hpl']
    have hdist : ds.Pairwise (fun a b => (a.indice, a.term) ≠ (b.indice, b.term)) := by
      have h1 := commitOrder_nodup ho (ix := ix) (fun c => (hix c).nodup)
      have h2 : (commitOrder order ix).map (fun e => (e.1, e.2.1)) = ds.map (fun d => (d.indice, d.term)) := by
        refine forall₂_map_eq hds' ?_
        rintro e d ⟨pre, b, post, _, _, _, rfl⟩
        rfl
      have h3 : ((commitOrder order ix).map (fun e => (e.1, e.2.1))).Nodup := by
        rw [List.Nodup, List.pairwise_map]; exact h1
      rw [h2, List.Nodup, List.pairwise_map] at h3
      exact h3
    obtain ⟨ts, e1, e2, e3, e4, e5⟩ := buildTables_spec ds (List.replicate ix.length none) (by
      intro d hd
      obtain ⟨⟨i, t, pl⟩, he, pre, b, post, h1, h2, h3, rfl⟩ := forall₂_right hds' d hd
      exact ⟨by simpa using ((hmap i t pl).1 he).1, by simpa using h3⟩) hdist
    refine ⟨ts, e1, fun j rest => ?_⟩
    have hnone : ∀ i, tabAt (List.replicate ix.length none) i = none := by
      intro i; unfold tabAt; rw [List.getElem?_replicate]; split <;> rfl
    have hentry : ∀ i t, f i t ≠ [] → ∃ pre b post, bytes = pre ++ b ++ post ∧
        codecEncode ρ (f i t) = .ok (b, b.length) ∧
        entryAt ts i t = some ⟨b.length, pre.length, (f i t).length⟩ := by
      intro i t hne
      have hi : i < ix.length := by by_contra hc; exact hne (hout i hc t)
      obtain ⟨d, hd, pre, b, post, h1, h2, h3, rfl⟩ := forall₂_left hds' _ ((hmap i t _).2 ⟨hi, rfl, hne⟩)
      exact ⟨pre, b, post, h1, h2, e4 _ hd⟩
    have hno : ∀ i t, f i t = [] → entryAt ts i t = none := by
      intro i t h0
      rw [e5 i t]
      · unfold entryAt; rw [hnone]; rfl
      · rintro d hd ⟨rfl, rfl⟩
        obtain ⟨⟨i, t, pl⟩, he, pre, b, post, h1, h2, h3, rfl⟩ := forall₂_right hds' d hd
        obtain ⟨_, q2, q3⟩ := (hmap i t pl).1 he
        exact q3 (q2.trans h0)
    refine ⟨by simpa [OpenIndex.size] using e2, ?_, ?_, ?_, ?_⟩
    · intro c
      show tabAt ts c = none ↔ _
      rw [e3 c]
      constructor
      · rintro ⟨_, h⟩ t
        by_contra hc
        obtain ⟨d, hd, pre, b, post, h1, h2, h3, rfl⟩ := forall₂_left hds' (c, t, f c t)
          ((hmap c t _).2 ⟨by by_contra hi; exact hc (hout c hi t), rfl, hc⟩)
        exact h _ hd rfl
      · intro h
        refine ⟨hnone c, fun d hd hdc => ?_⟩
        obtain ⟨⟨i, t, pl⟩, he, pre, b, post, h1, h2, h3, rfl⟩ := forall₂_right hds' d hd
        obtain ⟨_, q2, q3⟩ := (hmap i t pl).1 he
        simp only at hdc
        subst hdc
        exact q3 (q2.trans (h t))
    · intro c tab htab t
      have htab' : tabAt ts c = some tab := htab
      have hval : entryAt ts c t = tab t := by unfold entryAt; rw [htab']; rfl
      unfold Table.has
      rw [← hval]
      constructor
      · intro h h0
        rw [hno c t h0] at h
        simp at h
      · intro h
        obtain ⟨pre, b, post, _, _, h3⟩ := hentry c t h
        rw [h3]; rfl
    · intro c tab htab t hne
      have htab' : tabAt ts c = some tab := htab
      have hval : entryAt ts c t = tab t := by unfold entryAt; rw [htab']; rfl
      obtain ⟨pre, b, post, h1, h2, h3⟩ := hentry c t hne
      refine ⟨⟨(f c t).length, ⟨b, 0⟩⟩, ?_, ?_⟩
      · unfold Table.get
        rw [← hval, h3]
        simp only
        have : (bytes ++ rest) = pre ++ b ++ (post ++ rest) := by rw [h1]; simp
        rw [this, slice_mid]
        rfl
      · intro stale
        have hp := hpl c t hne
        obtain ⟨b', s, q1, q2, q3⟩ := openPList_rep L stale hp.ne hp.u32 hp.sorted hp.kind
        rw [h2] at q1
        simp only [Except.ok.injEq, Prod.mk.injEq] at q1
        obtain ⟨rfl, _⟩ := q1
        exact ⟨s, q2, q3⟩
    · intro c tab htab t hne ctx hctx
      have htab' : tabAt ts c = some tab := htab
      have hval : entryAt ts c t = tab t := by unfold entryAt; rw [htab']; rfl
      obtain ⟨pre, b, post, h1, h2, h3⟩ := hentry c t hne
      unfold Table.get at hctx
      rw [← hval, h3] at hctx
      simp only [bind, Except.bind] at hctx
      split at hctx
      · simp at hctx
      · simp only [pure, Except.pure, Except.ok.injEq, Option.some.injEq] at hctx
        rw [← hctx]

/-! ### Directories -/

theorem bufWrite_flatten (size : Nat) (buf p : List UInt8) :
    (bufWrite size buf p).1.flatten ++ (bufWrite size buf p).2 = buf ++ p := by
  unfold bufWrite
  split
  · simp
  · split
    · rename_i h; simp [h]
    · simp only
      split <;> simp [List.append_assoc]

theorem bufWrites_flatten (size : Nat) : ∀ (ps : List (List UInt8)) (buf : List UInt8),
    (bufWrites size ps buf).1.flatten ++ (bufWrites size ps buf).2 = buf ++ ps.flatten
  | [], buf => by simp [bufWrites]
  | p :: ps, buf => by
    have h1 := bufWrite_flatten size buf p
    have h2 := bufWrites_flatten size ps (bufWrite size buf p).2
    simp only [bufWrites, List.flatten_append, List.append_assoc, h2, List.flatten_cons]
    rw [← List.append_assoc, h1]
    simp

theorem bufFlush_flatten (buf : List UInt8) : (bufFlush buf).flatten = buf := by
  unfold bufFlush; split <;> simp_all

theorem bufWrites_le (size : Nat) : ∀ (ps : List (List UInt8)) (buf : List UInt8), buf.length ≤ size →
    (bufWrites size ps buf).2.length ≤ size
  | [], buf, h => h
  | p :: ps, buf, h => by
    simp only [bufWrites]
    apply bufWrites_le
    unfold bufWrite
    split
    · simp; omega
    · split
      · simp
      · simp only
        split
        · rename_i h'; exact h'
        · simp

/-- Writes to one file. -/
theorem applyFS_writes (n : String) : ∀ (ws : List (List UInt8)) (fs : Files) {b : List UInt8}, fs n = some b →
    ((ws.map (DirOp.write n)).foldl applyFS fs) n = some (b ++ ws.flatten) ∧
    ∀ m, m ≠ n → ((ws.map (DirOp.write n)).foldl applyFS fs) m = fs m
  | [], fs, b, h => by simp [h]
  | w :: ws, fs, b, h => by
    have h1 : applyFS fs (.write n w) n = some (b ++ w) := by simp [applyFS, Files.update, h]
    obtain ⟨i1, i2⟩ := applyFS_writes n ws (applyFS fs (.write n w)) h1
    refine ⟨by simpa using i1, fun m hm => ?_⟩
    simp only [List.map_cons, List.foldl_cons]
    rw [i2 m hm]
    simp [applyFS, Files.update, hm]

theorem applyRAM_writes (n : String) : ∀ (ws : List (List UInt8)) (fs : Files) {b : List UInt8}, fs n = some b →
    ((ws.map (DirOp.write n)).foldl applyRAM fs) n = some (b ++ ws.flatten) ∧
    ∀ m, m ≠ n → ((ws.map (DirOp.write n)).foldl applyRAM fs) m = fs m
  | [], fs, b, h => by simp [h]
  | w :: ws, fs, b, h => by
    have h1 : applyRAM fs (.write n w) n = some (b ++ w) := by simp [applyRAM, Files.update, h]
    obtain ⟨i1, i2⟩ := applyRAM_writes n ws (applyRAM fs (.write n w)) h1
    refine ⟨by simpa using i1, fun m hm => ?_⟩
    simp only [List.map_cons, List.foldl_cons]
    rw [i2 m hm]
    simp [applyRAM, Files.update, hm]

/-- Complete commit on the file system. -/
theorem commitFS_files {cfg : WriterConfig} (hne : cfg.header ≠ cfg.docs) (fs : Files)
    (dw hw : List (List UInt8)) :
    ((commitOpsFS cfg dw hw).foldl applyFS fs) cfg.docs = some dw.flatten ∧
    ((commitOpsFS cfg dw hw).foldl applyFS fs) cfg.header = some hw.flatten := by
  have hd := bufWrites_flatten 4096 dw []
  have hh := bufWrites_flatten 4096 hw []
  simp only [List.nil_append] at hd hh
  unfold commitOpsFS
  simp only [List.foldl_append, List.foldl_cons, List.cons_append]
  obtain ⟨a1, a2⟩ := applyFS_writes cfg.docs (bufWrites 4096 dw []).1 (applyFS fs (.create cfg.docs)) (b := [])
    (by simp [applyFS, Files.update])
  obtain ⟨b1, b2⟩ := applyFS_writes cfg.header ((bufWrites 4096 hw []).1 ++ bufFlush (bufWrites 4096 hw []).2)
    (applyFS (List.foldl applyFS (applyFS fs (.create cfg.docs))
      ((bufWrites 4096 dw []).1.map (DirOp.write cfg.docs))) (.create cfg.header)) (b := [])
    (by simp [applyFS, Files.update])
  have hdocs := b2 cfg.docs (Ne.symm hne)
  rw [show applyFS (List.foldl applyFS (applyFS fs (.create cfg.docs))
      ((bufWrites 4096 dw []).1.map (DirOp.write cfg.docs))) (.create cfg.header) cfg.docs
      = some ([] ++ (bufWrites 4096 dw []).1.flatten) from by
        rw [← a1]; simp [applyFS, Files.update, Ne.symm hne]] at hdocs
  obtain ⟨c1, c2⟩ := applyFS_writes cfg.docs (bufFlush (bufWrites 4096 dw []).2) _ hdocs
  refine ⟨?_, ?_⟩
  · rw [c1, bufFlush_flatten, List.nil_append, hd]
  · rw [c2 _ hne, b1, List.flatten_append, bufFlush_flatten, hh]; simp

/-- Complete commit into an empty RAM directory. -/
theorem commitRAM_files {cfg : WriterConfig} (hne : cfg.header ≠ cfg.docs) (fs : Files)
    (dw hw : List (List UInt8)) :
    ((commitOpsRAM cfg dw hw).foldl applyRAM fs) cfg.docs = some ((fs cfg.docs).getD [] ++ dw.flatten) ∧
    ((commitOpsRAM cfg dw hw).foldl applyRAM fs) cfg.header = some ((fs cfg.header).getD [] ++ hw.flatten) := by
  have hcreate : ∀ (fs : Files) n, applyRAM fs (.create n) n = some ((fs n).getD []) := by
    intro fs n
    simp only [applyRAM]
    cases h : fs n with
    | none => simp [Files.update]
    | some b => simp [h]
  have hcreate' : ∀ (fs : Files) n m, m ≠ n → applyRAM fs (.create n) m = fs m := by
    intro fs n m hm
    simp only [applyRAM]
    cases h : fs n with
    | none => simp [Files.update, hm]
    | some b => rfl
  unfold commitOpsRAM
  simp only [List.foldl_append, List.foldl_cons, List.cons_append]
  obtain ⟨a1, a2⟩ := applyRAM_writes cfg.docs dw (applyRAM fs (.create cfg.docs)) (hcreate fs cfg.docs)
  obtain ⟨b1, b2⟩ := applyRAM_writes cfg.header hw
    (applyRAM (List.foldl applyRAM (applyRAM fs (.create cfg.docs)) (dw.map (DirOp.write cfg.docs)))
      (.create cfg.header)) (hcreate _ cfg.header)
  refine ⟨?_, ?_⟩
  · rw [b2 _ (Ne.symm hne), hcreate' _ _ _ (Ne.symm hne), a1]
  · rw [b1, a2 _ hne, hcreate' _ _ _ hne]

end Verif
