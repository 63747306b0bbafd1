import Verif.Proofs.CorpusFiles
/- C49 (n-gram files), C62 (from a corpus to counts), C63 (from a corpus to a stored language model). -/
namespace Verif.Props
open Verif Verif.Spec Verif.NFiles Verif.CFiles Verif.Scan

/-! ### C49 -/

theorem decimal_length {n k : Nat} (hk : 1 ≤ k) (h : n < 10 ^ k) : (decimal n).length ≤ k := by
  induction k generalizing n with
  | zero => omega
  | succ k ih =>
    unfold decimal
    split
    · simp
    · rename_i h10
      have hk' : 1 ≤ k := by
        rcases Nat.eq_zero_or_pos k with h0 | h0
        · subst h0; omega
        · exact h0
      have := ih hk' (n := n / 10) (by rw [Nat.pow_succ] at h; omega)
      simp only [List.length_append, List.length_singleton]
      omega

theorem lineText_short {g : List Bytes} {c : Nat} (h : (joined g).length + 11 < maxTokenSize) (hc : c < 2 ^ 32) :
    (lineText g c).length < maxTokenSize := by
  have := decimal_length (n := c) (k := 10) (by omega) (by omega)
  unfold lineText
  unfold joined at h
  simp only [List.length_append, List.length_cons]
  omega

theorem totalCount_ne {h : List (List Bytes × Nat)} {p : List Bytes} (h0 : totalCount h p ≠ 0) : ∃ pc ∈ h, pc.1 = p := by
  by_contra hc
  push Not at hc
  exact h0 (totalCount_not_mem hc)

theorem files_written (h : List (List Bytes × Nat)) (voc : List Bytes) (hvs : voc.length < 2 ^ 32)
    (hv : ∀ pc ∈ h, ∀ w ∈ pc.1, w ∈ voc) {order : Nat} (hlen : ∀ pc ∈ h, pc.1.length ≤ order)
    {ord : List Bytes → List (Nat × CTNode) → List (Nat × CTNode)} (ho : AnyOrder ord) :
    ∃ files, IsFiles (fun p => totalCount h p % 2 ^ 32) order files ∧
      nGramWrite order (afterPuts h) ord = .ok (files.map fileText) := by
  obtain ⟨calls, w1, w2, w3⟩ := C41_walk h voc hvs hv ho
  obtain ⟨calls', v1, v2⟩ := C41_any_walker h voc hvs hv ho
  have : calls = calls' := by rw [w1] at v1; injection v1
  subst this
  refine ⟨(List.range order).map (fileOf calls), ⟨by simp, ?_, ?_⟩, ?_⟩
  · intro k F hF
    obtain ⟨j, _, rfl⟩ := List.mem_map.1 (List.mem_of_getElem? hF)
    exact (w2.sublist (List.filter_sublist.map _))
  · intro k F hF p c
    have hj : k < order := by simpa using (List.getElem?_eq_some_iff.1 hF).1
    rw [List.getElem?_map, List.getElem?_range hj] at hF
    simp only [Option.map_some, Option.some.injEq] at hF
    subst hF
    unfold fileOf
    rw [List.mem_filter, w3]
    simp only [decide_eq_true_eq]
    constructor
    · rintro ⟨⟨_, b, c⟩, d⟩; exact ⟨d, b, c⟩
    · rintro ⟨d, b, c⟩
      refine ⟨⟨?_, b, c⟩, d⟩
      obtain ⟨pc, hpc, hp⟩ := totalCount_ne (h := h) (p := p) (by intro h0; rw [h0] at b; exact c b)
      refine ⟨pc, hpc, ?_⟩
      rw [hp]; intro h0; rw [h0] at d; simp at d
  · rw [write_ok v2, List.map_map]
    · rfl
    · rintro ⟨p, c⟩ he
      obtain ⟨_, b, c⟩ := (w3 p c).1 he
      obtain ⟨pc, hpc, hp⟩ := totalCount_ne (h := h) (p := p) (by intro h0; rw [h0] at b; exact c b)
      rw [← hp]
      exact hlen pc hpc

theorem files_read {cnt : List Bytes → Nat} {order : Nat} (hord : 1 ≤ order) {files : List (List (List Bytes × Nat))}
    (hF : IsFiles cnt order files) {get : Bytes → Except Err Nat} {id : Bytes → Nat}
    (hw : ∀ p, cnt p ≠ 0 → ∀ w ∈ p, PlainWord w ∧ get w = .ok (id w)) (hc : ∀ p, p ≠ [] → cnt p < 2 ^ 32)
    (hs : ∀ p, cnt p ≠ 0 → p.length ≤ order → (joined p).length + 11 < maxTokenSize) {rs : List Reader}
    (hrs : List.Forall₂ Delivers rs (files.map fileText)) :
    ∃ n, ∀ fuel, n ≤ fuel → readNGramFiles get fuel rs = some (readModel (files.map (idFile id))) := by
  have hgood : ∀ F ∈ files, GoodEntries get id F ∧ ∀ e ∈ F, e.1 ≠ [] := by
    intro F hFm
    obtain ⟨k, hk⟩ := List.getElem?_of_mem hFm
    have hkl : k < files.length := (List.getElem?_eq_some_iff.1 hk).1
    have hm := hF.mem k F hk
    have hne : ∀ e ∈ F, e.1 ≠ [] ∧ cnt e.1 ≠ 0 ∧ e.2 = cnt e.1 ∧ e.1.length ≤ order := by
      intro e he
      obtain ⟨a, b, c⟩ := (hm e.1 e.2).1 he
      refine ⟨by intro h0; rw [h0] at a; simp at a, by rw [← b]; exact c, b, ?_⟩
      rw [a, ← hF.len]; omega
    refine ⟨⟨?_, ?_, ?_⟩, fun e he => (hne e he).1⟩
    · intro e he w hw'
      exact hw e.1 (hne e he).2.1 w hw'
    · intro e he
      rw [(hne e he).2.2.1]
      exact hc _ (hne e he).1
    · intro e he
      apply lineText_short (hs e.1 (hne e he).2.1 (hne e he).2.2.2)
      rw [(hne e he).2.2.1]
      exact hc _ (hne e he).1
  have hrs' : List.Forall₂ (fun r F => Delivers r (fileText F)) rs files := by
    clear hgood hF
    generalize hm : files.map fileText = texts at hrs
    induction hrs generalizing files with
    | nil =>
      cases files with
      | nil => exact .nil
      | cons _ _ => simp at hm
    | cons hr _ ih =>
      cases files with
      | nil => simp at hm
      | cons F files =>
        simp only [List.map_cons, List.cons.injEq] at hm
        exact .cons (by rw [hm.1]; exact hr) (ih hm.2)
  obtain ⟨n, hn⟩ := read_vectors files rs [] hgood hrs'
  have hlen : rs.length = files.length := hrs'.length_eq
  refine ⟨n, fun fuel hf => ?_⟩
  unfold readNGramFiles readModel
  rw [if_neg (by rw [hlen, hF.len]; omega), if_neg (by rw [List.length_map, hF.len]; omega), hn fuel hf]
  rfl

/-- C49 (partial: words without blank, tab and newline; the text of an n-gram with its count shorter than 64 KiB; every
n-gram occurs together with its prefix; fewer than 2^32-2 Puts; nGramOrder not exceeded). Any history of Puts, written by
the writer and read back in whatever chunks the files are delivered, with whatever word numbering `id` the indexer has:
writing succeeds with one file per order, reading succeeds, and following the words of any n-gram from vector to vector
each lookup returns the count (uint32) that the trie has for the prefix read so far. -/
theorem C49_roundtrip_partial (h : List (List Bytes × Nat)) (hh : h.length ≤ 2 ^ 32 - 3) (voc : List Bytes)
    (hvs : voc.length < 2 ^ 32) (hv : ∀ pc ∈ h, ∀ w ∈ pc.1, w ∈ voc) (hplain : ∀ w ∈ voc, PlainWord w) {order : Nat}
    (hord : 1 ≤ order) (hlen : ∀ pc ∈ h, pc.1.length ≤ order) (hshort : ∀ pc ∈ h, (joined pc.1).length + 11 < 65536)
    (hclosed : ∀ p, 2 ≤ p.length → totalCount h p % 2 ^ 32 ≠ 0 → totalCount h p.dropLast % 2 ^ 32 ≠ 0)
    {ord : List Bytes → List (Nat × CTNode) → List (Nat × CTNode)} (ho : AnyOrder ord) :
    ∃ outs, nGramWrite order (afterPuts h) ord = .ok outs ∧ outs.length = order ∧
      ∀ (rs : List Reader) (get : Bytes → Except Err Nat) (id : Bytes → Nat), List.Forall₂ Delivers rs outs →
        (∀ w ∈ voc, get w = .ok (id w) ∧ id w < 2 ^ 32) → (∀ v ∈ voc, ∀ w ∈ voc, id v = id w → v = w) →
        ∃ vs, (∃ n, ∀ fuel, n ≤ fuel → readNGramFiles get fuel rs = some (.ok vs)) ∧ vs.length = order ∧
          ∃ offset : List Bytes → Nat, offset [] = invalidContext ∧
            ∀ (v : PackedArray) g w, vs[g.length]? = some v → (∀ x ∈ g ++ [w], x ∈ voc) →
              v.getCount (id w) (offset g) = .ok (totalCount h (g ++ [w]) % 2 ^ 32, offset (g ++ [w])) := by
  obtain ⟨files, hF, hw⟩ := files_written h voc hvs hv hlen ho
  refine ⟨files.map fileText, hw, by simp [hF.len], ?_⟩
  intro rs get id hrs hget hinj
  have hcv : ∀ p, totalCount h p % 2 ^ 32 ≠ 0 → ∀ w ∈ p, w ∈ voc := by
    intro p hp w hwp
    obtain ⟨pc, hpc, rfl⟩ := totalCount_ne (h := h) (p := p) (by intro h0; rw [h0] at hp; exact hp rfl)
    exact hv pc hpc w hwp
  obtain ⟨n, hn⟩ := files_read hord hF (get := get) (id := id) (rs := rs)
    (fun p hp w hwp => ⟨hplain w (hcv p hp w hwp), (hget w (hcv p hp w hwp)).1⟩) (fun p _ => Nat.mod_lt _ (by decide))
    (by
      intro p hp _
      obtain ⟨pc, hpc, rfl⟩ := totalCount_ne (h := h) (p := p) (by intro h0; rw [h0] at hp; exact hp rfl)
      exact hshort pc hpc) hrs
  have hlines : ∀ F ∈ files, F.length ≤ 2 ^ 32 - 3 := by
    intro F hFm
    obtain ⟨k, hk⟩ := List.getElem?_of_mem hFm
    have h1 : (F.map Prod.fst) ⊆ h.map Prod.fst := by
      intro p hp
      obtain ⟨e, he, rfl⟩ := List.mem_map.1 hp
      obtain ⟨a, b, c⟩ := (hF.mem k F hk e.1 e.2).1 he
      obtain ⟨pc, hpc, hp⟩ := totalCount_ne (h := h) (p := e.1) (by intro h0; rw [h0] at b; exact c b)
      exact List.mem_map.2 ⟨pc, hpc, hp⟩
    have h2 := ((hF.nodup k F hk).subperm h1).length_le
    simp only [List.length_map] at h2
    omega
  have hG := goodFiles_ids hF (id := id) (fun p hp w hwp => (hget w (hcv p hp w hwp)).2) hclosed
    (fun p _ => Nat.mod_lt _ (by decide)) hlines
  obtain ⟨vs, hvs, hvl, offset, o1, o2, o3, o4⟩ := C43_model hG (by
    intro h0
    have := hF.len
    have h1 := congrArg List.length h0
    simp only [List.length_map, List.length_nil] at h1
    omega)
  refine ⟨vs, ⟨n, fun fuel hf => by rw [hn fuel hf, hvs]⟩, by rw [hvl, List.length_map, hF.len],
    fun g => offset (g.map id), o1, ?_⟩
  intro v g w hvg hgw
  have hlt : g.length < vs.length := (List.getElem?_eq_some_iff.1 hvg).1
  have h1 := o2 v (g.map id) (id w) (by simpa using hvg) (by
    intro x hx
    have : x ∈ (g ++ [w]).map id := by simpa using hx
    obtain ⟨y, hy, rfl⟩ := List.mem_map.1 this
    exact (hget y (hgw y hy)).2)
  have h2 := gramCount_ids hF (id := id) hinj hcv (g := g ++ [w]) hgw (by simp) (by
    rw [List.length_map] at hvl
    rw [List.length_append, List.length_singleton, ← hF.len]; omega)
  have h3 : (g ++ [w]).map id = g.map id ++ [id w] := by simp
  rw [h3] at h2
  rw [h1, h2]
  simp

/-- C49. A file in which some line is longer than 64 KiB is refused, whatever precedes and follows that line. -/
theorem C49_long_line_refused {r : Reader} (hr : ∀ c ∈ r.chunks, c ≠ []) {pre : List Bytes} {long rest : Bytes}
    (ht : r.chunks.flatten = (pre.flatMap fun l => l ++ [10]) ++ (long ++ rest))
    (hpre : ∀ l ∈ pre, 10 ∉ l ∧ l.length < 65536) (hl : 10 ∉ long) (hlong : 65536 < long.length)
    (get : Bytes → Except Err Nat) (parents : List PackedArray) :
    ∃ n, ∀ fuel, n ≤ fuel → ∃ e, readNGramVector get parents fuel r = some (.error e) := by
  obtain ⟨n, h⟩ := yields_trunc scanLines_trunc hr ⟨pre, long, rest, ht, rfl, hpre, hl, hlong⟩
  refine ⟨n, fun fuel hf => ?_⟩
  unfold readNGramVector
  rw [h fuel hf]
  simp only
  cases readNGramLines get parents [] (pre.map Spec.chomp) with
  | error e => exact ⟨e, rfl⟩
  | ok tree => exact ⟨errTooLong, rfl⟩

/-- C49. If reading a file fails, Read fails. -/
theorem C49_read_error_refused {r : Reader} (hr : ∀ c ∈ r.chunks, c ≠ [])
    (hshort : ∀ l ∈ r.chunks.flatten.splitOn 10, l.length < 65536) (hlast : r.last ≠ .eof)
    (get : Bytes → Except Err Nat) (parents : List PackedArray) :
    ∃ n, ∀ fuel, n ≤ fuel → ∃ e, readNGramVector get parents fuel r = some (.error e) := by
  obtain ⟨n, h⟩ := yields_new scanLines_ok scanLines_fits hr hshort
  refine ⟨n, fun fuel hf => ?_⟩
  unfold readNGramVector
  rw [h fuel hf, if_neg hlast]
  simp only
  cases readNGramLines get parents [] (Spec.lines r.chunks.flatten) with
  | error e => exact ⟨e, rfl⟩
  | ok tree => exact ⟨r.last, rfl⟩

/-- C49. Building the dictionary of a language model from a file `1-gm` in which, after any number of proper lines, there
is a line consisting of a number only (the word and the tab are missing): the program panics instead of reporting the bad
line. -/
theorem C49_dictionary_line_without_tab {r : Reader} (hr : ∀ c ∈ r.chunks, c ≠ [])
    (hshort : ∀ l ∈ r.chunks.flatten.splitOn 10, l.length < 65536) (entries : List (Bytes × Nat)) (n : Nat) (post : List Bytes)
    (ht : Spec.lines r.chunks.flatten = (entries.map fun e => e.1 ++ 9 :: decimal e.2) ++ decimal n :: post)
    (he : ∀ e ∈ entries, PlainWord e.1 ∧ e.1 ≠ [] ∧ e.2 < 2 ^ 32) (hn : n < 2 ^ 32) :
    ∃ N, ∀ fuel, N ≤ fuel → buildDictionary fuel r = some (.error .panicSlice) := by
  obtain ⟨N, h⟩ := yields_new scanLines_ok scanLines_fits hr hshort
  refine ⟨N, fun fuel hf => ?_⟩
  have hnt : tabIndex (decimal n) = none := by
    unfold tabIndex
    rw [List.findIdx?_eq_none_iff]
    intro x hx
    have := decimal_no (x := 9) (by unfold IsDigit; decide) n
    simp only [beq_eq_false_iff_ne, ne_eq]
    rintro rfl
    exact this hx
  have hbad : ∀ tree, dictLine tree (decimal n) = .error .panicSlice := fun tree => by
    unfold dictLine; simp only [hnt, List.drop_zero, parseUint32_decimal hn]
  have hfold : ∀ (es : List (Bytes × Nat)) tree, (∀ e ∈ es, PlainWord e.1 ∧ e.1 ≠ [] ∧ e.2 < 2 ^ 32) →
      foldE dictLine tree ((es.map fun e => e.1 ++ 9 :: decimal e.2) ++ decimal n :: post) = .error .panicSlice := by
    intro es
    induction es with
    | nil => intro tree _; rw [List.map_nil, List.nil_append, foldE, hbad]
    | cons e es ih =>
      intro tree h
      obtain ⟨h1, h2, h3⟩ := h e (by simp)
      have := dict_line h1 h2 h3 tree
      rw [show lineText [e.1] e.2 = e.1 ++ 9 :: decimal e.2 by simp [lineText]] at this
      rw [List.map_cons, List.cons_append, foldE, this]
      exact ih _ (fun x hx => h x (by simp [hx]))
  unfold buildDictionary
  rw [h fuel hf]
  simp only
  rw [ht, hfold entries [] he]

/-- The file `a<tab>2`, `17`, in one chunk. -/
example : buildDictionary 10 ⟨[[97, 9, 50, 10, 49, 55, 10]], .eof, false⟩ = some (.error .panicSlice) ∧
    Spec.lines [97, 9, 50, 10, 49, 55, 10] = ([(([97] : Bytes), 2)].map fun e => e.1 ++ 9 :: decimal e.2) ++ decimal 17 :: [] := by
  decide +kernel

/-- A numbering of the words "a", "b", "c". -/
def abcID (w : Bytes) : Nat := if w = [97] then 0 else if w = [98] then 1 else 2

/-- C49 fails for a trie that lacks the prefix of one of its n-grams: from the bigram "a b" alone the reader makes a model
in which the n-gram "c b", that was never put, has the same count. -/
theorem C49_unclosed_wrong : ∃ outs vs i, nGramWrite 2 (afterPuts [([[97], [98]], 1)]) (fun _ l => l) = .ok outs ∧
    outs = [[], [97, 32, 98, 9, 49, 10]] ∧
    readNGramFiles (fun w => .ok (abcID w)) 10 [⟨[], .eof, false⟩, ⟨[[97, 32, 98, 9, 49, 10]], .eof, false⟩] = some (.ok vs) ∧
    ∃ v1 v2, vs = [v1, v2] ∧ v1.getCount (abcID [99]) invalidContext = .ok (0, i) ∧
      v2.getCount (abcID [98]) i = .ok (1, 0) ∧ totalCount [([[97], [98]], 1)] [[99], [98]] = 0 := by
  refine ⟨[[], [97, 32, 98, 9, 49, 10]], [createPackedArray [], createPackedArray [(pack invalidContext 1, 1)]], invalidContext,
    by decide +kernel, rfl, by decide +kernel, createPackedArray [], createPackedArray [(pack invalidContext 1, 1)], rfl,
    by decide +kernel, by decide +kernel, by decide +kernel⟩

/-- The history of the example: "a" twice, "b" once, "a b" once. -/
def abHistory : List (List Bytes × Nat) := [([[97]], 1), ([[97], [98]], 1), ([[98]], 1), ([[97]], 1)]

/-- The hypotheses of C49_roundtrip_partial are met; what is written, and delivered in two chunks. -/
example : (∀ pc ∈ abHistory, ∀ w ∈ pc.1, w ∈ ([[97], [98]] : List Bytes)) ∧
    (∀ w ∈ ([[97], [98]] : List Bytes), PlainWord w) ∧
    (∀ pc ∈ abHistory, pc.1.length ≤ 2) ∧ (∀ pc ∈ abHistory, (joined pc.1).length + 11 < 65536) ∧
    (∀ p, 2 ≤ p.length → totalCount abHistory p % 2 ^ 32 ≠ 0 → totalCount abHistory p.dropLast % 2 ^ 32 ≠ 0) ∧
    nGramWrite 2 (afterPuts abHistory) (fun _ l => l) = .ok [[97, 9, 50, 10, 98, 9, 49, 10], [97, 32, 98, 9, 49, 10]] ∧
    Delivers ⟨[[97, 9, 50], [10, 98, 9, 49, 10]], .eof, false⟩ [97, 9, 50, 10, 98, 9, 49, 10] ∧
    (∀ v ∈ ([[97], [98]] : List Bytes), ∀ w ∈ ([[97], [98]] : List Bytes), abcID v = abcID w → v = w) := by
  refine ⟨by decide, by unfold PlainWord; decide, by decide, by decide, ?_, by decide +kernel,
    ⟨by decide, by decide, rfl⟩, by decide⟩
  intro p hp h0
  obtain ⟨pc, hpc, rfl⟩ := totalCount_ne (h := abHistory) (p := p) (by intro h; rw [h] at h0; exact h0 rfl)
  simp only [abHistory, List.mem_cons, List.not_mem_nil, or_false] at hpc
  rcases hpc with rfl | rfl | rfl | rfl
  · simp at hp
  · decide
  · simp at hp
  · simp at hp

/-! ### C62 -/

theorem tokens_fit {corpus : List (List Bytes)} (hsize : corpusTokens corpus ≤ 2 ^ 32 - 3) {start fin : Bytes} {p : List Bytes}
    (hp : p ≠ []) : corpusCount start fin corpus p < 2 ^ 32 := by
  have := corpusCount_le_one start fin corpus hp
  omega

/-- What Build returns, as a history of Puts. -/
theorem build_history {start fin : Bytes} {order : Nat} {corpus : List (List Bytes)} {st : BuildState}
    (hr : BuildReachable start fin order corpus st) (hret : st.returned = true) :
    st.trie = afterPuts (allPuts start fin order corpus) := by
  obtain ⟨done, ht, hp⟩ := buildInv hr
  have hd : corpus = done := by
    cases hpr : st.producer with
    | loop => rw [hpr] at hp; rw [hp.2] at hret; cases hret
    | sending s => rw [hpr] at hp; rw [hp.2.2] at hret; cases hret
    | quitting => rw [hpr] at hp; rw [hp.2.2] at hret; cases hret
    | done => rw [hpr] at hp; exact hp.1
  rw [hd]; exact ht

/-- The n-grams up to the order, with their counts. -/
def limited (start fin : Bytes) (order : Nat) (corpus : List (List Bytes)) (p : List Bytes) : Nat :=
  if 1 ≤ p.length ∧ p.length ≤ order then corpusCount start fin corpus p else 0

theorem limited_eq {start fin : Bytes} {order : Nat} {corpus : List (List Bytes)} (hsize : corpusTokens corpus ≤ 2 ^ 32 - 3)
    (p : List Bytes) : totalCount (allPuts start fin order corpus) p % 2 ^ 32 = limited start fin order corpus p := by
  rw [total_allPuts]
  unfold limited
  split
  · rename_i h
    exact Nat.mod_eq_of_lt (tokens_fit hsize (by intro h0; rw [h0] at h; simp at h))
  · rfl

theorem mem_short {g : List Bytes} {corpus : List (List Bytes)} {start fin : Bytes} {order : Nat} {c : Nat}
    (h : (g, c) ∈ allPuts start fin order corpus) : g.length ≤ order := by
  unfold allPuts sentencePuts at h
  obtain ⟨s, _, h⟩ := List.mem_flatMap.1 h
  obtain ⟨k, hk, h⟩ := List.mem_flatMap.1 h
  obtain ⟨g', hg, h⟩ := List.mem_map.1 h
  injection h with h1 _
  subst h1
  obtain ⟨i, _, rfl⟩ := List.mem_map.1 hg
  have := List.mem_range.1 hk
  simp only [List.length_take]
  omega

theorem corpus_written {start fin : Bytes} {order : Nat} {corpus : List (List Bytes)} (hC : GoodCorpus start fin order corpus)
    {st : BuildState} (hr : BuildReachable start fin order corpus st) (hret : st.returned = true)
    {ord : List Bytes → List (Nat × CTNode) → List (Nat × CTNode)} (ho : AnyOrder ord) :
    ∃ files, IsFiles (limited start fin order corpus) order files ∧
      nGramWrite order st.trie ord = .ok (files.map fileText) := by
  -- the vocabulary: the words that occur, without repetition
  have hvoc : ∀ pc ∈ allPuts start fin order corpus, ∀ w ∈ pc.1,
      w ∈ (allPuts start fin order corpus).flatMap Prod.fst := fun pc hpc w hw => List.mem_flatMap.2 ⟨pc, hpc, hw⟩
  have hlen : ((allPuts start fin order corpus).flatMap Prod.fst).dedup.length < 2 ^ 32 := by
    have h1 : (((allPuts start fin order corpus).flatMap Prod.fst).dedup.map fun w => [w]).Nodup :=
      (List.nodup_dedup _).map fun a b h => by simpa using h
    have h2 := corpusCount_le (start := start) (fin := fin) corpus (n := 1) (Nat.le_refl 1) h1 (by
      intro p hp; obtain ⟨w, _, rfl⟩ := List.mem_map.1 hp; rfl)
    have h3 := length_le_sum ((((allPuts start fin order corpus).flatMap Prod.fst).dedup.map fun w => [w]).map
      (corpusCount start fin corpus)) (by
        intro x hx
        obtain ⟨p, hp, rfl⟩ := List.mem_map.1 hx
        obtain ⟨w, hw, rfl⟩ := List.mem_map.1 hp
        rw [List.mem_dedup] at hw
        obtain ⟨pc, hpc, hw⟩ := List.mem_flatMap.1 hw
        unfold allPuts sentencePuts at hpc
        obtain ⟨s, hs, hpc⟩ := List.mem_flatMap.1 hpc
        obtain ⟨k, _, hpc⟩ := List.mem_flatMap.1 hpc
        obtain ⟨g, hg, rfl⟩ := List.mem_map.1 hpc
        exact corpusCount_word (List.mem_filter.1 hs).1 (by simpa using (List.mem_filter.1 hs).2) (mem_nGramsOf hg w hw))
    have := hC.size
    simp only [List.length_map] at h3
    omega
  obtain ⟨files, h1, h2⟩ := files_written (allPuts start fin order corpus) _ hlen
    (fun pc hpc w hw => List.mem_dedup.2 (hvoc pc hpc w hw)) (order := order) (fun pc hpc => mem_short (c := pc.2) hpc) ho
  refine ⟨files, ?_, by rw [build_history hr hret]; exact h2⟩
  have : (fun p => totalCount (allPuts start fin order corpus) p % 2 ^ 32) = limited start fin order corpus := by
    funext p; exact limited_eq hC.size p
  rw [← this]; exact h1

theorem limited_ne {start fin : Bytes} {order : Nat} {corpus : List (List Bytes)} {p : List Bytes}
    (h : limited start fin order corpus p ≠ 0) :
    1 ≤ p.length ∧ p.length ≤ order ∧ corpusCount start fin corpus p ≠ 0 := by
  unfold limited at h
  split at h
  · rename_i hl; exact ⟨hl.1, hl.2, h⟩
  · exact absurd rfl h

theorem words_occur {start fin : Bytes} {corpus : List (List Bytes)} {p : List Bytes}
    (h : corpusCount start fin corpus p ≠ 0) : ∀ w ∈ p, corpusCount start fin corpus [w] ≠ 0 := by
  intro w hw
  obtain ⟨s, hs, hne, _, hm⟩ := corpusCount_mem h
  exact corpusCount_word hs hne (by simpa using hm w hw)

theorem word_plain {start fin : Bytes} {order : Nat} {corpus : List (List Bytes)} (hC : GoodCorpus start fin order corpus)
    {w : Bytes} (h : corpusCount start fin corpus [w] ≠ 0) : PlainWord w := by
  obtain ⟨s, hs, hne, _, hm⟩ := corpusCount_mem h
  rcases hm w (by simp) with rfl | h | rfl
  · exact hC.startPlain
  · exact hC.plain s hs w h
  · exact hC.finPlain

theorem corpus_read {start fin : Bytes} {order : Nat} {corpus : List (List Bytes)} (hC : GoodCorpus start fin order corpus)
    {files : List (List (List Bytes × Nat))} (hF : IsFiles (limited start fin order corpus) order files)
    {rs : List Reader} (hrs : List.Forall₂ Delivers rs (files.map fileText))
    {get : Bytes → Except Err Nat} {id : Bytes → Nat}
    (hget : ∀ w, corpusCount start fin corpus [w] ≠ 0 → get w = .ok (id w) ∧ id w < 2 ^ 32)
    (hinj : ∀ v w, corpusCount start fin corpus [v] ≠ 0 → corpusCount start fin corpus [w] ≠ 0 → id v = id w → v = w) :
    CorpusFiles (files.map (idFile id)) ∧ corpusSize (files.map (idFile id)) = corpusTokens corpus ∧
      (∀ g, g ≠ [] → g.length ≤ order → (∀ w ∈ g, corpusCount start fin corpus [w] ≠ 0) →
        gramCount (files.map (idFile id)) (g.map id) = corpusCount start fin corpus g) ∧
      ∃ n, ∀ fuel, n ≤ fuel → readNGramFiles get fuel rs = some (readModel (files.map (idFile id))) := by
  have hord := hC.orderPos
  have hw : ∀ p, limited start fin order corpus p ≠ 0 → ∀ w ∈ p, corpusCount start fin corpus [w] ≠ 0 :=
    fun p hp => words_occur (limited_ne hp).2.2
  have hle : ∀ p, limited start fin order corpus p ≤ corpusCount start fin corpus p := by
    intro p; unfold limited; split <;> omega
  refine ⟨?_, ?_, ?_, ?_⟩
  · refine corpusFiles_ids hF (fun p hp w hwp => (hget w (hw p hp w hwp)).2) ?_ ?_
    · intro p h2 hp
      obtain ⟨a, b, c⟩ := limited_ne hp
      have := corpusCount_dropLast start fin corpus p
      unfold limited
      rw [if_pos (by rw [List.length_dropLast]; omega)]
      omega
    · intro n L h1 hn hl
      have h2 := corpusCount_le (start := start) (fin := fin) corpus h1 hn hl
      have h3 := sum_le_sum (limited start fin order corpus) (corpusCount start fin corpus) L fun p _ => hle p
      have := hC.size
      omega
  · unfold corpusSize
    obtain ⟨F, h0⟩ : ∃ F, files[0]? = some F := ⟨_, List.getElem?_eq_getElem (by rw [hF.len]; omega)⟩
    rw [List.getD_eq_getElem?_getD, List.getElem?_map, h0, Option.map_some, Option.getD_some, idFile_snd, isFiles_sum hF h0]
    have hl : ∀ p ∈ F.map Prod.fst, p.length = 1 ∧ limited start fin order corpus p = corpusCount start fin corpus p := by
      intro p hp
      obtain ⟨e, he, rfl⟩ := List.mem_map.1 hp
      have := ((hF.mem 0 F h0 e.1 e.2).1 he).1
      refine ⟨this, ?_⟩
      unfold limited
      rw [if_pos (by omega)]
    rw [List.map_congr_left fun p hp => (hl p hp).2]
    apply sum_eq_tokens (hF.nodup 0 F h0) fun p hp => (hl p hp).1
    intro w hw0
    refine List.mem_map.2 ⟨([w], corpusCount start fin corpus [w]), (hF.mem 0 F h0 _ _).2 ⟨rfl, ?_, hw0⟩, rfl⟩
    unfold limited
    rw [if_pos ⟨by simp, by simpa using hord⟩]
  · intro g hg hgl hgw
    have hgp : 1 ≤ g.length := List.length_pos_of_ne_nil hg
    let voc := g ++ ((files.flatMap fun F => F).flatMap Prod.fst)
    have hvoc : ∀ v ∈ voc, corpusCount start fin corpus [v] ≠ 0 := by
      intro v hv
      rcases List.mem_append.1 hv with hv | hv
      · exact hgw v hv
      · obtain ⟨e, he, hv⟩ := List.mem_flatMap.1 hv
        obtain ⟨F, hFm, he⟩ := List.mem_flatMap.1 he
        obtain ⟨k, hk⟩ := List.getElem?_of_mem hFm
        obtain ⟨a, b, c⟩ := (hF.mem k F hk e.1 e.2).1 he
        exact hw e.1 (by rw [← b]; exact c) v hv
    rw [gramCount_ids hF (id := id) (voc := voc) (fun v hv w hw => hinj v w (hvoc v hv) (hvoc w hw)) ?_
      (fun w hw => List.mem_append_left _ hw) hgp hgl]
    · unfold limited; rw [if_pos ⟨hgp, hgl⟩]
    · intro p hp w hwp
      obtain ⟨a, b, c⟩ := limited_ne hp
      obtain ⟨F, hk⟩ : ∃ F, files[p.length - 1]? = some F := ⟨_, List.getElem?_eq_getElem (by rw [hF.len]; omega)⟩
      apply List.mem_append_right
      refine List.mem_flatMap.2 ⟨(p, limited start fin order corpus p), List.mem_flatMap.2 ⟨F, List.mem_of_getElem? hk, ?_⟩, hwp⟩
      exact (hF.mem _ _ hk _ _).2 ⟨by omega, rfl, hp⟩
  · refine files_read hord hF (fun p hp w hwp => ⟨word_plain hC (hw p hp w hwp), (hget w (hw p hp w hwp)).1⟩) ?_ ?_ hrs
    · intro p hp
      have := hle p
      have := tokens_fit hC.size (start := start) (fin := fin) hp
      omega
    · intro p hp hl
      exact hC.short p hl (limited_ne hp).2.2

/-- C62. From any corpus within the limits, whatever the schedule of the goroutines of Build and whatever the iteration
order of the maps: the n-gram files that are written and read back (in any chunks, with any numbering of the words that
occur) give the model of count files whose counts are the numbers of occurrences in the corpus and whose size is the number
of tokens. -/
theorem C62_corpus_counts {start fin : Bytes} {order : Nat} {corpus : List (List Bytes)}
    (hC : GoodCorpus start fin order corpus) {st : BuildState} (hr : BuildReachable start fin order corpus st)
    (hret : st.returned = true) {ord : List Bytes → List (Nat × CTNode) → List (Nat × CTNode)} (ho : AnyOrder ord) :
    ∃ outs, nGramWrite order st.trie ord = .ok outs ∧ outs.length = order ∧
      ∀ (rs : List Reader) (get : Bytes → Except Err Nat) (id : Bytes → Nat), List.Forall₂ Delivers rs outs →
        (∀ w, corpusCount start fin corpus [w] ≠ 0 → get w = .ok (id w) ∧ id w < 2 ^ 32) →
        (∀ v w, corpusCount start fin corpus [v] ≠ 0 → corpusCount start fin corpus [w] ≠ 0 → id v = id w → v = w) →
        ∃ files, CorpusFiles files ∧ files.length = order ∧ corpusSize files = corpusTokens corpus ∧
          (∀ g, g ≠ [] → g.length ≤ order → (∀ w ∈ g, corpusCount start fin corpus [w] ≠ 0) →
            gramCount files (g.map id) = corpusCount start fin corpus g) ∧
          ∃ n, ∀ fuel, n ≤ fuel → readNGramFiles get fuel rs = some (readModel files) := by
  obtain ⟨files, hF, hw⟩ := corpus_written hC hr hret ho
  refine ⟨files.map fileText, hw, by simp [hF.len], fun rs get id hrs hget hinj => ?_⟩
  obtain ⟨a, b, c, d⟩ := corpus_read hC hF hrs hget hinj
  exact ⟨files.map (idFile id), a, by simp [hF.len], b, c, d⟩

/-- C62, scores: a word seen after a context in the corpus gets its relative frequency there. -/
theorem C62_corpus_scores {start fin : Bytes} {order : Nat} {corpus : List (List Bytes)}
    (hC : GoodCorpus start fin order corpus) {st : BuildState} (hr : BuildReachable start fin order corpus st)
    (hret : st.returned = true) {ord : List Bytes → List (Nat × CTNode) → List (Nat × CTNode)} (ho : AnyOrder ord) :
    ∃ outs, nGramWrite order st.trie ord = .ok outs ∧
      ∀ (rs : List Reader) (get : Bytes → Except Err Nat) (id : Bytes → Nat), List.Forall₂ Delivers rs outs →
        (∀ w, corpusCount start fin corpus [w] ≠ 0 → get w = .ok (id w) ∧ id w < 2 ^ 32) →
        (∀ v w, corpusCount start fin corpus [v] ≠ 0 → corpusCount start fin corpus [w] ≠ 0 → id v = id w → v = w) →
        ∃ vs, (∃ n, ∀ fuel, n ≤ fuel → readNGramFiles get fuel rs = some (.ok vs)) ∧
          ∀ context w, context.length + 1 ≤ order → corpusCount start fin corpus (context ++ [w]) ≠ 0 →
            modelScore vs ((context ++ [w]).map id) = .ok (.ratio 0 (corpusCount start fin corpus (context ++ [w]))
              (if context = [] then corpusTokens corpus else corpusCount start fin corpus context)) := by
  obtain ⟨outs, h1, _, h2⟩ := C62_corpus_counts hC hr hret ho
  refine ⟨outs, h1, fun rs get id hrs hget hinj => ?_⟩
  obtain ⟨files, a, b, c, d, n, hn⟩ := h2 rs get id hrs hget hinj
  have hord := hC.orderPos
  obtain ⟨vs, hvs, hsc⟩ := C44_score_partial a (by intro h0; rw [h0] at b; simp at b; omega)
  refine ⟨vs, ⟨n, fun fuel hf => by rw [hn fuel hf, hvs]⟩, ?_⟩
  intro context w hl h0
  have hwo := words_occur h0
  have hcnt := d (context ++ [w]) (by simp) (by simpa using hl) hwo
  have := (hsc ((context ++ [w]).map id) (by simp) (by simpa [b] using hl) (by
    intro x hx
    obtain ⟨y, hy, rfl⟩ := List.mem_map.1 hx
    exact (hget y (hwo y hy)).2)).1 (context.length + 1) (by omega) (by simp) (by
      rw [List.take_of_length_le (by simp), hcnt]; omega) (by intro i h1 h2; simp at h2; omega)
  rw [this, List.take_of_length_le (by simp), hcnt]
  have ht : ((context ++ [w]).map id).take (context.length + 1 - 1) = context.map id := by simp
  rw [ht]
  unfold contextCount
  by_cases hc : context = []
  · subst hc; simp [c]
  · rw [if_neg (by simpa using hc), if_neg hc,
      d context hc (by omega) (fun v hv => hwo v (List.mem_append_left _ hv))]
    simp

end Verif.Props
