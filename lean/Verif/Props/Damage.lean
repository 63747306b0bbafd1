import Verif.Spec.Damage
import Verif.Proofs.DamageSuggest
import Verif.Proofs.DamageAutocomplete
import Verif.Proofs.DamageFiles
import Verif.Proofs.DamageLM
import Verif.Proofs.FloatMaxY
import Verif.Props.Suggest
import Verif.Props.Autocomplete
/-!
Property theorems C86: what happens when the files of a dictionary or of a language model have been damaged.

`Err.Reported e` — `e` is an ordinary error value (not a Go panic, not "did not end"); `OpenIndex` — any header tables and
any document list, not necessarily written by the indexer; `oi.cut n` — the document list is cut after `n` bytes;
`Roaring.Robust`, `Gob.Robust` — what is assumed of the bitmap library and of encoding/gob on arbitrary bytes
(Verif/Spec/Damage.lean).
-/
namespace Verif.Props
open Verif Spec Damage

section open_
variable {G : Gob} (hG : G.Robust) (cfg : WriterConfig) (fs : Files)

include hG in
/-- **C86** Opening arbitrary files: an index, or an error — or a panic in exactly one situation: the header is readable and
names a term of a segment beyond the number of segments it announces. -/
theorem C86_open_partial :
    (∃ oi, readIndex G cfg (openFS fs) = .ok oi) ∨ (∃ e, readIndex G cfg (openFS fs) = .error e ∧ e.Reported) ∨
    (readIndex G cfg (openFS fs) = .error .panicIndex ∧ ∃ b d h, fs cfg.header = some b ∧ fs cfg.docs = some d ∧
      G.decode b = .ok h ∧ h.version = indexVersion ∧ ∃ t ∈ h.terms, h.indices ≤ t.indice) := by
  have key : ∀ name r, openFS fs name = .ok r → fs name = some r.buf := by
    intro name r h
    unfold openFS at h
    split at h
    · simp at h
    · simp at h
    · rename_i b hb
      simp only [Except.ok.injEq] at h
      rw [hb, ← h]
  rcases readIndex_cases hG cfg (openFS_good fs) with h | h | ⟨h, hin, dn, hd, h1, h2, h3⟩
  · exact .inl h
  · exact .inr (.inl h)
  · exact .inr (.inr ⟨h, hin.buf, dn.buf, hd, key _ _ h1, key _ _ h2, h3⟩)

end open_

/-- **C86** finding: in that situation opening the index does panic. -/
theorem C86_open_panics {G : Gob} {cfg : WriterConfig} {fs : Files} {b d : List UInt8} {h : Header} (h1 : fs cfg.header = some b)
    (hb : b ≠ []) (h2 : fs cfg.docs = some d) (hd : d ≠ []) (h3 : G.decode b = .ok h) (h4 : h.version = indexVersion)
    (h5 : ∃ t ∈ h.terms, h.indices ≤ t.indice) : readIndex G cfg (openFS fs) = .error .panicIndex := by
  have key : ∀ name c, fs name = some c → c ≠ [] → openFS fs name = .ok ⟨c, 0⟩ := by
    intro name c hc hn
    unfold openFS
    rw [hc]
    match c, hn with
    | x :: c, _ => rfl
  exact readIndex_panics cfg (key _ _ h1 hb) (key _ _ h2 hd) h3 h4 h5

/-- Both contracts for encoding/gob can be met together. -/
theorem gob_robust_satisfiable : ∃ G : Gob, G.Lawful ∧ G.Robust := by
  obtain ⟨G, LG⟩ := gob_contract_satisfiable
  refine ⟨⟨G.encode, fun b => match G.decode b with | .ok h => .ok h | .error _ => .error (.other "gob")⟩, ⟨?_, ?_⟩, ?_⟩
  · intro h rest
    show (match G.decode (G.encode h ++ rest) with | .ok h => _ | .error _ => _) = _
    rw [LG.roundtrip]
  · intro h p q hpq hq
    obtain ⟨e, he⟩ := LG.truncated h p q hpq hq
    refine ⟨.other "gob", ?_⟩
    show (match G.decode p with | .ok h => _ | .error _ => _) = _
    rw [he]
  · intro b e he
    dsimp only at he
    split at he
    · simp at he
    · simp only [Except.error.injEq] at he
      rw [← he]
      exact ⟨rfl, by simp [loopBound]⟩

/-- Non-vacuity: there are such files (a header that announces no segment but describes a term of segment 0). -/
example : ∃ (G : Gob) (fs : Files), G.Lawful ∧ G.Robust ∧ readIndex G ⟨"h", "d"⟩ (openFS fs) = .error .panicIndex := by
  obtain ⟨G, LG, RG⟩ := gob_robust_satisfiable
  have hdec := LG.roundtrip ⟨indexVersion, 0, [⟨"ab", 0, 1, 0, 1⟩]⟩ [0]
  refine ⟨G, fun n => if n = "h" then some (G.encode ⟨indexVersion, 0, [⟨"ab", 0, 1, 0, 1⟩]⟩ ++ [0]) else some [0], LG, RG, ?_⟩
  exact C86_open_panics (G := G) (cfg := ⟨"h", "d"⟩) (if_pos rfl) (by simp) (if_neg (by decide)) (by simp) hdec rfl
    ⟨⟨"ab", 0, 1, 0, 1⟩, by simp, by simp⟩

section search
variable {ρ : Roaring} (R : ρ.Robust) {sort : List (PList ρ) → List (PList ρ)} (hs : ∀ r, (sort r).Perm r) (oi : OpenIndex)
  {q : List String}

instance : Nonempty (Nat → SkipList) := ⟨fun _ => ⟨⟨[], 0⟩, 0, 0, 0, 0, 0, 0, false⟩⟩

include R hs in
/-- **C86** `Suggest` on an index with arbitrary tables and an arbitrary document list: under every schedule it ends, without
panic, deadlock or endless run, with a result or an ordinary error. Any arithmetic and any metric whose size range contains
the size of the query and begins inside the index. -/
theorem C86_suggest_ends {S : Type} [LinearOrder S] [Inhabited S] {F : FloatOps S} {M : Metric S} {α : S}
    (hq : q.length ≤ 0xFFFF) (h1 : M.minY α q.length ≤ q.length) (h2 : q.length ≤ M.maxY α q.length)
    (h3 : M.minY α q.length < oi.size) {K : Nat} (hK : 1 ≤ K) :
    let c := suggestCall F M ρ sort oi q α K
    ¬ SuggestPanics c ∧ ¬ SuggestBlocks c ∧ (∀ f : Nat → SState S, ¬ ∀ i, c.Step (f i) (f (i + 1))) ∧
      (∃ r, SuggestReturns c r) ∧ ∀ e, SuggestReturns c (.error e) → e.Reported := by
  intro c
  have hc : CallOk c K := callOk_of R hs oi hq h1 h2 h3 hK
  by_cases hz : c.sizeA = 0
  · refine ⟨?_, ?_, no_infinite_run, ⟨_, .empty hz⟩, ?_⟩
    · rintro (⟨h, _⟩ | ⟨h, _⟩) <;> exact h hz
    · rintro ⟨h, _⟩; exact h hz
    · intro e he
      generalize hx : (Except.error e : Except Err (List (Candidate S))) = x at he
      cases he with
      | empty _ => simp at hx
      | run h _ _ => exact absurd hz h
  · obtain ⟨a, b, c', d, e⟩ := dcall hc hz
    exact ⟨a, b, c', d, fun x hx => e _ hx x rfl⟩

include R hs in
/-- **C86** … in particular with the four metrics in float64, for queries of up to 32767 tokens. -/
theorem C86_suggest {oob : Int} {M : Metric ℚ} {sim : Nat → Nat → Nat → ℝ} (hM : F64Metric oob M sim) {α : ℚ}
    (h0 : 1 / 2 ^ 20 ≤ α) (h1 : α ≤ 1) (hq0 : q ≠ []) (hq : q.length ≤ 32767) (h3 : M.minY α q.length < oi.size)
    {K : Nat} (hK : 1 ≤ K) :
    let c := suggestCall (f64Ops oob) M ρ sort oi q α K
    ¬ SuggestPanics c ∧ ¬ SuggestBlocks c ∧ (∀ f : Nat → SState ℚ, ¬ ∀ i, c.Step (f i) (f (i + 1))) ∧
      (∃ r, SuggestReturns c r) ∧ ∀ e, SuggestReturns c (.error e) → e.Reported := by
  have hp : 1 ≤ q.length := List.length_pos_iff.2 hq0
  have F := hM.facts hp (by omega)
  exact C86_suggest_ends R hs oi (by omega) (F.minY_le α (lt_of_lt_of_le (by norm_num) h0) h1)
    (hM.len_le_maxY hp hq h0 h1) h3 hK

include R hs in
/-- **C86** `Autocomplete` likewise, for every limit. -/
theorem C86_autocomplete (hq : q.length ≤ 0xFFFF) (limit : Nat) :
    let c := autocompleteCall ρ sort oi q limit
    ¬ AutocompletePanics c ∧ ¬ AutocompleteBlocks c ∧
      (∀ f : Nat → AState (List MergeCandidate) ℚ, ¬ ∀ i, c.Step (f i) (f (i + 1))) ∧
      (∃ r, AutocompleteReturns c r) ∧ ∀ e, AutocompleteReturns c (.error e) → e.Reported := by
  intro c
  obtain ⟨a, b, c', d, e⟩ := adcall (acallOk_of R hs oi hq limit)
  exact ⟨a, b, c', d, fun x hx => e _ hx x rfl⟩

end search

/-- **C86** The loops of `LowerBound` end within as many rounds as the list announces entries, whatever the bytes are: more
rounds than that never change the result. (The third claim is the sequential loop of the list with skips.) -/
theorem C86_lower_bound_ends (bnd : Nat) :
    (∀ (s : VBList) (k : Nat), s.size ≤ k → VBList.lbLoop bnd k s = VBList.lbLoop bnd s.size s) ∧
    (∀ (s : SkipList) (k : Nat), 0 < s.skippingGap → s.size ≤ k →
      let skips := if s.index > 0 then s.index / s.skippingGap else 0
      SkipList.blockLoop bnd k skips s = SkipList.blockLoop bnd s.size skips s) ∧
    ∀ (s : SkipList) (k : Nat), s.size ≤ k → SkipList.seqLoop bnd k s = SkipList.seqLoop bnd s.size s := by
  refine ⟨fun s k h => VB.lbLoop_enough bnd _ s k (by omega) h, fun s k hg h => ?_,
    fun s k h => Skip.seqLoop_enough bnd _ s k (by omega) h⟩
  refine Skip.blockLoop_enough bnd _ _ s k hg (fun _ => ?_) (by omega) h
  split
  · have := Nat.lt_div_mul_add hg (a := s.index)
    rw [Nat.add_mul, Nat.one_mul]
    exact this
  · rename_i hi
    have : s.index = 0 := by omega
    rw [this]; simpa using hg

/-- The contract for the bitmap library on arbitrary bytes can be met together with the one on its own output. -/
def toyRobust : toyRoaring.Robust where
  Left it n := List.length it ≤ n
  reject buf e h := by simp [toyRoaring] at h
  accept buf b _ := Nat.le_refl _
  next it n hl hn := by
    change List Nat at it
    change List.length it ≤ n at hl
    change (!List.isEmpty it) = true at hn
    match it, hn with
    | x :: it, _ =>
      simp only [List.length_cons] at hl
      exact ⟨n - 1, by omega, by show (List.tail (x :: it)).length ≤ n - 1; simp only [List.tail_cons]; omega⟩
  advance it n bnd hl := Nat.le_trans (List.Sublist.length_le (List.dropWhile_sublist _)) hl

/-- Non-vacuity of C86_suggest: a one-segment table that points behind the end of an empty document list. -/
example (sort : List (PList toyRoaring) → List (PList toyRoaring)) (hs : ∀ r, (sort r).Perm r) :
    let oi : OpenIndex := ⟨⟨[], 0⟩, [none, some fun t => if t = "ab" then some ⟨7, 3, 2⟩ else none]⟩
    ¬ SuggestPanics (suggestCall (f64Ops 0) (jaccardMetric (f64Ops 0)) toyRoaring sort oi ["ab"] (1 / 2) 3) := by
  intro oi
  refine (C86_suggest toyRobust hs oi (q := ["ab"]) (F64Metric.jaccard (oob := 0)) (by norm_num) (by norm_num) (by simp)
    (by simp) ?_ (by decide)).1
  show (jaccardMetric (f64Ops 0)).minY (1 / 2) 1 < 2
  have := ((F64Metric.jaccard (oob := 0)).facts (a := 1) (le_refl _) (by omega)).minY_le (1 / 2) (by norm_num) (by norm_num)
  have : (jaccardMetric (f64Ops 0)).minY (1 / 2) 1 ≤ 1 := by exact_mod_cast this
  omega

section cut
variable {G : Gob} {cfg : WriterConfig} {fs : Files}

/-- **C86** Cutting the document list after `n` bytes: opening fails with an error, or gives the same index with the cut
list. -/
theorem C86_cut_docs (hG : G.Robust) (hne : cfg.header ≠ cfg.docs) {oi : OpenIndex} (h : readIndex G cfg (openFS fs) = .ok oi) (n : Nat) :
    (∃ e, readIndex G cfg (openFS (fs.cutFile cfg.docs n)) = .error e ∧ e.Reported) ∨
    readIndex G cfg (openFS (fs.cutFile cfg.docs n)) = .ok (oi.cut n) := by
  have h1 : openFS (fs.cutFile cfg.docs n) cfg.header = openFS fs cfg.header := by
    unfold openFS Files.cutFile
    rw [if_neg hne]
  have h2 : ∀ d', openFS (fs.cutFile cfg.docs n) cfg.docs = .ok d' → ∃ d, openFS fs cfg.docs = .ok d ∧ d' = ⟨d.buf.take n, d.i⟩ := by
    intro d' hd
    unfold openFS Files.cutFile at hd
    rw [if_pos rfl] at hd
    unfold openFS
    cases hf : fs cfg.docs with
    | none => rw [hf] at hd; simp at hd
    | some b =>
      rw [hf] at hd
      match b with
      | [] => simp at hd
      | x :: b =>
        refine ⟨_, rfl, ?_⟩
        simp only [Option.map_some] at hd
        split at hd
        · simp at hd
        · simp at hd
        · rename_i c hc
          simp only [Option.some.injEq] at hc
          simp only [Except.ok.injEq] at hd
          rw [← hd, ← hc]
  rcases readIndex_cases hG cfg (openFS_good (fs.cutFile cfg.docs n)) with ⟨oi', h'⟩ | h' | ⟨h', hin, dn, hh, a1, a2, a3, a4, a5⟩
  · obtain ⟨oi2, e1, e2⟩ := readIndex_cut h1 h2 h'
    rw [h] at e1
    simp only [Except.ok.injEq] at e1
    subst e1
    right; rw [h', e2]
  · exact .inl h'
  · exfalso
    obtain ⟨d, d1, _⟩ := h2 _ a2
    rw [h1] at a1
    rw [readIndex_panics cfg a1 d1 a3 a4 a5] at h
    simp at h

/-- **C86** Cutting the header anywhere: opening fails. -/
theorem C86_cut_header (LG : G.Lawful) {h : Header} (hf : fs cfg.header = some (G.encode h)) {n : Nat} (hn : n < (G.encode h).length) :
    ∃ e, readIndex G cfg (openFS (fs.cutFile cfg.header n)) = .error e := by
  have e0 : (fs.cutFile cfg.header n) cfg.header = some ((G.encode h).take n) := by
    unfold Files.cutFile
    rw [if_pos rfl, hf]; rfl
  obtain ⟨e, he⟩ := LG.truncated h ((G.encode h).take n) ((G.encode h).drop n) (List.take_append_drop _ _).symm (by
    intro hx
    have := congrArg List.length hx
    simp only [List.length_drop, List.length_nil] at this
    omega)
  unfold readIndex
  cases ho : openFS (fs.cutFile cfg.header n) cfg.header with
  | error e' => exact ⟨e', rfl⟩
  | ok r =>
    unfold openFS at ho
    rw [e0] at ho
    refine ⟨e, ?_⟩
    split at ho
    · simp at ho
    · simp at ho
    · rename_i b hb
      simp only [Option.some.injEq] at hb
      simp only [Except.ok.injEq] at ho
      rw [← ho, ← hb]
      simp [bind, Except.bind, he]

end cut

section cutSearch
variable {ρ : Roaring} {sort : List (PList ρ) → List (PList ρ)} {oi : OpenIndex} {q : List String}

/-- **C86** A search on an index whose document list was cut never gives a wrong answer: an answer it gives is one the whole
index gives (any arithmetic, any metric; every schedule). -/
theorem C86_cut_suggest {S : Type} [LinearOrder S] [Inhabited S] {F : FloatOps S} {M : Metric S} {α : S} {topK : Int} {n : Nat}
    {r : List (Candidate S)} (h : SuggestReturns (suggestCall F M ρ sort (oi.cut n) q α topK) (.ok r)) :
    SuggestReturns (suggestCall F M ρ sort oi q α topK) (.ok r) := suggest_cut h

/-- **C86** The same for `Autocomplete`. -/
theorem C86_cut_autocomplete {limit : Int} {n : Nat} {r : List (Candidate ℚ)}
    (h : AutocompleteReturns (autocompleteCall ρ sort (oi.cut n) q limit) (.ok r)) :
    AutocompleteReturns (autocompleteCall ρ sort oi q limit) (.ok r) := autocomplete_cut h

variable (L : ρ.Lawful) {G : Gob} (LG : G.Lawful) {docs : List Doc} (hd : GoodDocs docs)
  (hf : FirstNonempty docs) (hoi : IndexOf ρ G docs oi) (hs : ∀ r, (sort r).Perm r) (hqd : q.Nodup)

include L LG hd hf hoi hs hqd in
/-- **C86** A cut index of `docs`: `Autocomplete` gives exactly the answer for `docs`, or an ordinary error. -/
theorem C86_cut_autocomplete_exact (R : ρ.Robust) (hq0 : q ≠ []) (hq : q.length ≤ 0xFFFF) {limit n : Nat} {r : Except Err (List (Candidate ℚ))}
    (hr : AutocompleteReturns (autocompleteCall ρ sort (oi.cut n) q limit) r) :
    r = .ok (((containing docs q).take limit).map fun id => ⟨id, -(id : ℚ)⟩) ∨ ∃ e, r = .error e ∧ e.Reported := by
  cases r with
  | ok l => exact .inl (C33_autocomplete L LG hd hf hoi hs (.of_short hq) hqd hq0 (autocomplete_cut hr))
  | error e => exact .inr ⟨e, rfl, (C86_autocomplete R hs (oi.cut n) hq limit).2.2.2.2 e hr⟩

include L LG hd hf hoi hs hqd in
/-- **C86** A cut index of `docs`: in exact arithmetic `Suggest` gives exactly the `K` best documents of `docs`, or an
ordinary error. -/
theorem C86_cut_suggest_exact (R : ρ.Robust) {oob : Int} {α : ℝ} (h0 : 0 < α) (h1 : α ≤ 1) {m : Nat} (hm : ∀ d ∈ docs, d.terms.length < m)
    (hm' : m ≤ 2 ^ 31) {M : Metric ℝ} {sim : Nat → Nat → Nat → ℝ} (hM : RealMetric oob α q.length m M sim)
    (hq : q.length ≤ 0xFFFF) (h2 : q.length ≤ M.maxY α q.length) (h3 : M.minY α q.length < oi.size)
    {K : Nat} (hK : 1 ≤ K) {n : Nat} {r : Except Err (List (Candidate ℝ))}
    (hr : SuggestReturns (suggestCall (realOps oob) M ρ sort (oi.cut n) q α K) r) :
    r = .ok (suggestAnswer sim docs q α K) ∨ ∃ e, r = .error e ∧ e.Reported := by
  cases r with
  | ok l => exact .inl (C29_suggest L LG hd hf hoi hs (.of_short hq) hqd h0 h1 hm hm' hM hK (suggest_cut hr))
  | error e =>
    right
    refine ⟨e, rfl, ?_⟩
    by_cases hq0 : q = []
    · subst hq0
      generalize hx : (Except.error e : Except Err (List (Candidate ℝ))) = x at hr
      cases hr with
      | empty _ => simp at hx
      | run h _ _ => exact absurd rfl h
    · have F := hM.facts h0 h1 (List.length_pos_iff.2 hq0) (by omega)
      exact (C86_suggest_ends R hs (oi.cut n) hq F.minY_le h2 h3 hK).2.2.2.2 e hr

end cutSearch

/-! ### Language models -/

/-- **C86** Every proper prefix of the binary file of a language model is refused: no shorter file is mistaken for a
model. (Part of the claim: the refusal may be a panic, see C86_lm_prefix_panics.) -/
theorem C86_lm_prefix_refused_partial {vs : List PackedArray} (hn : vs.length < 256) (hs : ∀ v ∈ vs, Storable v) {m : MPH}
    (hl : m.values.length < 2 ^ 32 ∧ m.auxiliary.length < 2 ^ 32)
    (hv : ∀ v ∈ m.values, v < 2 ^ 32) (ha : ∀ a ∈ m.auxiliary, -2 ^ 31 ≤ a ∧ a < 2 ^ 31)
    {n : Nat} (h : n < (lmStore vs m).length) : ∃ e, lmLoad ((lmStore vs m).take n) = .error e := by
  refine lmLoad_prefix hn hs hl hv ha (List.take_append_drop n _) ?_
  intro hx
  have := congrArg List.length hx
  simp only [List.length_drop, List.length_nil] at this
  omega

/-- **C86** finding: the refusal is a panic, not an error, when the file ends inside the data of a vector. -/
theorem C86_lm_prefix_panics (v : PackedArray) (hv : Storable v) (hc : v.containers ≠ []) (rest : List PackedArray)
    (hr : rest.length < 255) (m : MPH) :
    ∃ n, n < (lmStore (v :: rest) m).length ∧ lmLoad ((lmStore (v :: rest) m).take n) = .error .panicSlice := by
  obtain ⟨C, V, t⟩ := v
  obtain ⟨hC, hV, ht, hsz⟩ := hv
  simp only at hC hV ht hsz hc
  have u1 : u32 (8 * C.length) = 8 * C.length := Nat.mod_eq_of_lt (by omega)
  have u2 : u32 (8 * V.length) = 8 * V.length := Nat.mod_eq_of_lt (by omega)
  have h5 : modelVersion.length = 5 := rfl
  have hpos : 0 < C.length := List.length_pos_iff.2 hc
  obtain ⟨hdr, hhdr⟩ : ∃ hdr, hdr = decimal (8 * C.length) ++ 32 :: (decimal (8 * V.length) ++ 32 :: (decimal t ++ [10])) := ⟨_, rfl⟩
  obtain ⟨p, hp⟩ : ∃ p, p = modelVersion ++ UInt8.ofNat (rest.length + 1) :: hdr := ⟨_, rfl⟩
  obtain ⟨tail, htl⟩ : ∃ tail, tail = C.flatMap encUInt64 ++ (V.flatMap encUInt64 ++ (rest.flatMap PackedArray.store ++ m.store)) := ⟨_, rfl⟩
  have e : lmStore (⟨C, V, t⟩ :: rest) m = p ++ tail := by
    rw [hp, hhdr, htl]
    simp [lmStore, modelStore, PackedArray.store, u1, u2]
  have htail : 0 < tail.length := by
    rw [htl, List.length_append, flatMap64_length]; omega
  refine ⟨p.length, by rw [e, List.length_append]; omega, ?_⟩
  rw [e, List.take_left]
  have n1 := readNumber_ok (stop := 32) (by unfold IsDigit; decide) (v := 8 * C.length) (by omega)
    (modelVersion ++ [UInt8.ofNat (rest.length + 1)]) (decimal (8 * V.length) ++ 32 :: (decimal t ++ [10]))
  have n2 := readNumber_ok (stop := 32) (by unfold IsDigit; decide) (v := 8 * V.length) (by omega)
    (modelVersion ++ [UInt8.ofNat (rest.length + 1)] ++ (decimal (8 * C.length) ++ [32])) (decimal t ++ [10])
  have n3 := readNumber_ok (stop := 10) (by unfold IsDigit; decide) (v := t) ht
    (modelVersion ++ [UInt8.ofNat (rest.length + 1)] ++ (decimal (8 * C.length) ++ [32]) ++ (decimal (8 * V.length) ++ [32])) []
  have b1 : modelVersion ++ [UInt8.ofNat (rest.length + 1)] ++ (decimal (8 * C.length) ++ 32 :: (decimal (8 * V.length) ++ 32 :: (decimal t ++ [10]))) = p := by
    rw [hp, hhdr]; simp
  have b2 : modelVersion ++ [UInt8.ofNat (rest.length + 1)] ++ (decimal (8 * C.length) ++ [32]) ++ (decimal (8 * V.length) ++ 32 :: (decimal t ++ [10])) = p := by
    rw [hp, hhdr]; simp
  have b3 : modelVersion ++ [UInt8.ofNat (rest.length + 1)] ++ (decimal (8 * C.length) ++ [32]) ++ (decimal (8 * V.length) ++ [32]) ++ (decimal t ++ [10]) = p := by
    rw [hp, hhdr]; simp
  rw [b1] at n1
  rw [b2] at n2
  rw [b3] at n3
  have k6 : (modelVersion ++ [UInt8.ofNat (rest.length + 1)]).length = 6 := rfl
  rw [k6] at n1
  have hbody := packedArrayLoad_body (p := p) (i := 6) n1 n2 n3
  have hpa : packedArrayLoad ⟨p, 6⟩ = (.error .panicSlice, ⟨p, p.length⟩) := by
    rw [hbody]
    unfold loadBody
    have hsum : u32 (8 * C.length + 8 * V.length) = 8 * C.length + 8 * V.length := Nat.mod_eq_of_lt (by omega)
    dsimp only
    rw [hsum, if_neg (by omega)]
  have hmodel : modelLoad ⟨p, 0⟩ = (.error .panicSlice, ⟨p, p.length⟩) := by
    have hlen : 6 ≤ p.length := by rw [hp]; simp only [List.length_append, List.length_cons, h5]; omega
    have t5 : p.take 5 = modelVersion := by rw [hp, ← h5, List.take_left]
    have hby : BytesInput.byteAt p (0 + 5) = .ok (rest.length + 1) := by
      unfold BytesInput.byteAt
      rw [hp, List.getElem?_append_right (by rw [h5])]
      simp only [h5, Nat.zero_add, Nat.sub_self, List.getElem?_cons_zero]
      rw [UInt8.toNat_ofNat', Nat.mod_eq_of_lt (by omega)]
    unfold modelLoad BytesInput.read
    dsimp only
    rw [if_neg (by omega)]
    dsimp only
    rw [List.drop_zero, t5, if_neg (by simp), h5]
    unfold BytesInput.readByte
    dsimp only
    rw [if_neg (by omega), hby]
    dsimp only
    simp only [loadVectors]
    rw [show (0 + 5 + 1 : Nat) = 6 from rfl, hpa]
  unfold lmLoad newBytesInput
  rw [hmodel]

/-- Non-vacuity of both: a model with one vector of one container and one value. -/
example : (∀ v ∈ [(⟨[5], [6], 7⟩ : PackedArray)], Storable v) ∧ (lmStore [⟨[5], [6], 7⟩] ⟨[-1], [3]⟩).length = 44 ∧
    lmLoad ((lmStore [⟨[5], [6], 7⟩] ⟨[-1], [3]⟩).take 20) = .error .panicSlice ∧
    lmLoad ((lmStore [⟨[5], [6], 7⟩] ⟨[-1], [3]⟩).take 40) = .error .unexpectedEOF := by
  refine ⟨?_, ?_, ?_, ?_⟩
  · intro v hv
    simp only [List.mem_singleton] at hv
    subst hv
    exact ⟨by simp, by simp, by simp, by simp⟩
  all_goals decide +kernel

/-- **C86** finding: a damaged file that is accepted can make a later lookup panic: this file of 14 bytes is a model without
n-grams and with an empty hash table; every lookup in it divides by zero. -/
theorem C86_lm_accepted_panics : ∃ m, lmLoad (modelVersion ++ 0 :: List.replicate 8 0) = .ok ([], m) ∧
    ∀ word, m.get word = .error .panicDivide := by
  refine ⟨⟨[], []⟩, by decide +kernel, fun word => ?_⟩
  rfl

end Verif.Props
