import Verif.Proofs.MPH
import Verif.Proofs.Store
/- C46 (minimal perfect hash), C47 (indexer), C48 (storing the hash table). -/
namespace Verif.Props

/-! ### C46

A dictionary has distinct 32-bit keys other than 2^32-1 (keys of a RAM dictionary are positions); `order` is any outcome of
sorting the buckets. `fuel < 2^31` says that no bucket needed 2^31-1 or more displacement attempts (about two billion), the
range in which `int32(d)` is positive. -/

/-- C46: if Build finishes, Get returns for every word of the dictionary its own key. -/
theorem C46_get {dict : Dict} (hkeys : (dict.map Prod.fst).Nodup) (hmax : ∀ e ∈ dict, e.1 ≠ 2 ^ 32 - 1) {order : List Nat}
    (hO : MphOrder dict order) {fuel : Nat} (hfuel : fuel < 2 ^ 31) {m : MPH} (h : mphBuild dict order fuel = some m) :
    ∀ key word, (key, word) ∈ dict → m.get word = .ok key :=
  fun key word he => Mph.build_spec hkeys hmax hO hfuel h (key, word) he

theorem ramDict_keys (words : List Bytes) : (ramDict words).map Prod.fst = List.range words.length := by
  unfold ramDict
  rw [List.map_map]
  have : (Prod.fst ∘ fun wi : Bytes × Nat => (wi.2, wi.1)) = Prod.snd := rfl
  rw [this]
  apply List.ext_getElem (by simp)
  intro i h1 h2
  simp

theorem ramDict_mem {words : List Bytes} {i : Nat} {w : Bytes} : (i, w) ∈ ramDict words ↔ words[i]? = some w := by
  unfold ramDict
  rw [List.mem_map]
  constructor
  · rintro ⟨⟨a, b⟩, h, heq⟩
    injection heq with h1 h2
    subst h1 h2
    exact List.mk_mem_zipIdx_iff_getElem?.1 h
  · intro h
    exact ⟨(w, i), List.mk_mem_zipIdx_iff_getElem?.2 h, rfl⟩

/-- C46: on a list of fewer than 2^32-1 words in memory, if Build finishes, Get maps word number i to i: the n words go to
n distinct values 0..n-1 (minimal and perfect). -/
theorem C46_minimal_perfect (words : List Bytes) (hn : words.length < 2 ^ 32) {order : List Nat}
    (hO : MphOrder (ramDict words) order) {fuel : Nat} (hfuel : fuel < 2 ^ 31) {m : MPH}
    (h : mphBuild (ramDict words) order fuel = some m) : ∀ (i : Nat) w, words[i]? = some w → m.get w = .ok i := by
  intro i w hi
  refine C46_get (by rw [ramDict_keys]; exact List.nodup_range) ?_ hO hfuel h i w (ramDict_mem.2 hi)
  rintro ⟨k, v⟩ he
  have := (List.getElem?_eq_some_iff.1 (ramDict_mem.1 he)).1
  simp only
  omega

/-- On every other string Get still answers some value of the dictionary and does not panic. -/
theorem C46_total {dict : Dict} (hkeys : (dict.map Prod.fst).Nodup) (hmax : ∀ e ∈ dict, e.1 ≠ 2 ^ 32 - 1) {order : List Nat}
    (hO : MphOrder dict order) {fuel : Nat} (hfuel : fuel < 2 ^ 31) {m : MPH} (h : mphBuild dict order fuel = some m)
    (hne : dict ≠ []) (word : Bytes) : ∃ key, m.get word = .ok key ∧ key ∈ dict.map Prod.fst := by
  obtain ⟨a, b, c⟩ := Mph.build_shape hfuel h
  have hpos : 0 < dict.length := List.length_pos_of_ne_nil hne
  obtain ⟨k, hk, hg⟩ := Mph.get_total a b c hpos word
  refine ⟨k, hg, ?_⟩
  -- the table holds exactly the keys
  have hsub : dict.map Prod.fst ⊆ m.values := by
    intro key hkey
    obtain ⟨e, he, rfl⟩ := List.mem_map.1 hkey
    obtain ⟨k', hk', hg'⟩ := Mph.get_total a b c hpos e.2
    rw [Mph.build_spec hkeys hmax hO hfuel h e he] at hg'
    injection hg' with hg'
    rw [hg']; exact hk'
  have hperm : (dict.map Prod.fst).Perm m.values :=
    (hkeys.subperm hsub).perm_of_length_le (by rw [c]; simp)
  exact hperm.mem_iff.2 hk

/-- If two entries carry the same word, Build never finishes: no number of attempts suffices. -/
theorem C46_duplicate_words_diverge {dict : Dict} {order : List Nat} (hO : MphOrder dict order)
    (hkeys : (dict.map Prod.fst).Nodup) {e e' : Nat × Bytes} (he : e ∈ dict) (he' : e' ∈ dict) (hne : e.1 ≠ e'.1)
    (hw : e.2 = e'.2) (fuel : Nat) : mphBuild dict order fuel = none := by
  unfold mphBuild
  cases hm : mphMulti dict fuel order (List.replicate dict.length 0) (List.replicate dict.length maxU32) with
  | none => rfl
  | some r =>
    exfalso
    have hpos : 0 < dict.length := List.length_pos_of_mem he
    have h1 : e.1 ∈ mphBucket dict (Mph.idx dict e.2) := Mph.mem_bucket.2 ⟨e, he, rfl, rfl⟩
    have h2 : e'.1 ∈ mphBucket dict (Mph.idx dict e.2) := Mph.mem_bucket.2 ⟨e', he', rfl, by rw [hw]⟩
    have hlen : 2 ≤ (mphBucket dict (Mph.idx dict e.2)).length := by
      by_contra hlt
      cases hb : mphBucket dict (Mph.idx dict e.2) with
      | nil => rw [hb] at h1; cases h1
      | cons a l =>
        cases l with
        | nil => rw [hb] at h1 h2; simp at h1 h2; exact hne (h1.trans h2.symm)
        | cons b l => rw [hb] at hlt; simp at hlt
    have := Mph.multi_nodup order hO.descending hm (Mph.idx dict e.2)
      (hO.perm.mem_iff.2 (List.mem_range.2 (Nat.mod_lt _ hpos))) hlen
    exact hne (List.inj_on_of_nodup_map this h1 h2 (by rw [Mph.dict_get hkeys he, Mph.dict_get hkeys he', hw]))

/-- Get on the table of an empty dictionary panics (modulo by zero). -/
theorem C46_empty_panics (fuel : Nat) (word : Bytes) : ∃ m, mphBuild [] [] fuel = some m ∧ m.get word = .error .panicDivide :=
  ⟨⟨[], []⟩, rfl, rfl⟩

/-- A dictionary of five words with a bucket of three, two of one and two empty ones. -/
def fiveWords : List Bytes := [[97], [98], [99, 100], [101], [102, 120]]

example : mphBuild (ramDict fiveWords) [1, 0, 2, 3, 4] 10 = some ⟨[-5, 3, -1, 0, 0], [3, 2, 4, 0, 1]⟩ := by decide +kernel

theorem fiveWords_order : MphOrder (ramDict fiveWords) [1, 0, 2, 3, 4] := ⟨by decide, by decide +kernel⟩

example : ∃ m, mphBuild (ramDict fiveWords) [1, 0, 2, 3, 4] 10 = some m ∧ m.get [101] = .ok 3 :=
  ⟨⟨[-5, 3, -1, 0, 0], [3, 2, 4, 0, 1]⟩, by decide +kernel, by decide +kernel⟩

/-- The hypotheses of the divergence theorem are met by the words "a", "a". -/
example : ∃ order, MphOrder (ramDict [[97], [97]]) order := ⟨[0, 1], by decide, by decide +kernel⟩

/-! ### C47 -/

/-- C47: Get returns the id of a word of the dictionary and UnknownWordID for every other string. -/
theorem C47_get {dict : Dict} (hkeys : (dict.map Prod.fst).Nodup) (hmax : ∀ e ∈ dict, e.1 ≠ 2 ^ 32 - 1) {order : List Nat}
    (hO : MphOrder dict order) {fuel : Nat} (hfuel : fuel < 2 ^ 31) {m : MPH} (h : mphBuild dict order fuel = some m)
    (hne : dict ≠ []) (word : Bytes) :
    (∀ key, (key, word) ∈ dict → indexerGet dict m word = .ok key) ∧
    ((∀ key, (key, word) ∉ dict) → indexerGet dict m word = .ok unknownWordID) := by
  refine ⟨?_, ?_⟩
  · intro key he
    unfold indexerGet
    rw [C46_get hkeys hmax hO hfuel h key word he]
    simp only
    rw [if_neg]
    rw [Mph.dict_get hkeys he]; simp
  · intro hno
    obtain ⟨key, hg, hk⟩ := C46_total hkeys hmax hO hfuel h hne word
    unfold indexerGet
    rw [hg]
    simp only
    rw [if_pos]
    obtain ⟨e, he, rfl⟩ := List.mem_map.1 hk
    rw [Mph.dict_get hkeys he]
    intro heq
    exact hno e.1 (by rw [← heq]; exact he)

/-- C47: Find is the inverse of Get, for every word other than "<nil/>" (for which it is not: `C47_nil_word_wrong`), and
gives the unknown symbol for an id that is not in the dictionary. -/
theorem C47_find_partial {dict : Dict} (hkeys : (dict.map Prod.fst).Nodup) :
    (∀ key word, (key, word) ∈ dict → word ≠ nilValue → indexerFind dict key = word) ∧
    (∀ key, key ∉ dict.map Prod.fst → indexerFind dict key = unknownWordSymbol) := by
  refine ⟨?_, ?_⟩
  · intro key word he hn
    unfold indexerFind
    rw [Mph.dict_get hkeys he, if_neg hn]
  · intro key hk
    have : dict.get key = nilValue := by
      unfold Dict.get
      have : dict.find? (fun e => e.1 == key) = none := by
        rw [List.find?_eq_none]
        intro e he heq
        exact hk (List.mem_map.2 ⟨e, he, by simpa using heq⟩)
      rw [this]
    unfold indexerFind
    rw [if_pos this]

/-- The word "<nil/>" has an id, but Find does not give it back. -/
theorem C47_nil_word_wrong : ∃ (m : MPH), mphBuild (ramDict [nilValue]) [0] 1 = some m ∧
    indexerGet (ramDict [nilValue]) m nilValue = .ok 0 ∧ indexerFind (ramDict [nilValue]) 0 = unknownWordSymbol ∧
    unknownWordSymbol ≠ nilValue :=
  ⟨⟨[-1], [0]⟩, by decide +kernel, by decide +kernel, by decide +kernel, by decide⟩

/-- The hypotheses of C47_get are met. -/
example : ((ramDict fiveWords).map Prod.fst).Nodup ∧ (∀ e ∈ ramDict fiveWords, e.1 ≠ 2 ^ 32 - 1) ∧
    MphOrder (ramDict fiveWords) [1, 0, 2, 3, 4] ∧ ramDict fiveWords ≠ [] :=
  ⟨by decide, by decide, fiveWords_order, by decide⟩

/-! ### C48, hash table -/

theorem readUInt32s_enc (vs : List Nat) (hv : ∀ v ∈ vs, v < 2 ^ 32) : ∀ (pre post : List UInt8),
    readUInt32s vs.length ⟨pre ++ (vs.flatMap encUInt32 ++ post), pre.length⟩ =
      (.ok vs, ⟨pre ++ (vs.flatMap encUInt32 ++ post), (pre ++ vs.flatMap encUInt32).length⟩) := by
  induction vs with
  | nil => intro pre post; simp [readUInt32s]
  | cons v vs ih =>
    intro pre post
    have h1 := readUInt32_enc (buf := pre ++ ((v :: vs).flatMap encUInt32 ++ post)) (rest := vs.flatMap encUInt32 ++ post)
      (i := pre.length) (v := v) (hv v (by simp)) (by simp)
    have h2 := ih (fun x hx => hv x (by simp [hx])) (pre ++ encUInt32 v) post
    have e : pre ++ ((v :: vs).flatMap encUInt32 ++ post) = (pre ++ encUInt32 v) ++ (vs.flatMap encUInt32 ++ post) := by simp
    simp only [List.length_cons, readUInt32s, h1]
    have h3 : pre.length + 4 = (pre ++ encUInt32 v).length := by simp [encUInt32_length]
    rw [h3, e, h2]
    simp

theorem fromI32_lt (v : Int) : fromI32 v < 2 ^ 32 := by unfold fromI32; omega

theorem toI32_fromI32 {v : Int} (h1 : -2 ^ 31 ≤ v) (h2 : v < 2 ^ 31) : toI32 (fromI32 v) = v := by
  unfold toI32 fromI32
  split <;> omega

/-- Storing and loading, for every table with 32-bit contents, wherever in the file it is stored. -/
theorem C48_mph_roundtrip (m : MPH) (hl : m.values.length < 2 ^ 32 ∧ m.auxiliary.length < 2 ^ 32)
    (hv : ∀ v ∈ m.values, v < 2 ^ 32) (ha : ∀ a ∈ m.auxiliary, -2 ^ 31 ≤ a ∧ a < 2 ^ 31) (before after : List UInt8) :
    mphLoad ⟨before ++ m.store ++ after, before.length⟩ =
      (.ok m, ⟨before ++ m.store ++ after, (before ++ m.store).length⟩) := by
  obtain ⟨aux, values⟩ := m
  simp only at hl hv ha
  have e : before ++ MPH.store ⟨aux, values⟩ ++ after =
      before ++ (encUInt32 values.length ++ (values.flatMap encUInt32 ++ (encUInt32 aux.length ++
        ((aux.map fromI32).flatMap encUInt32 ++ after)))) := by
    simp [MPH.store, List.flatMap_map]
  rw [e]
  generalize hb : (before ++ (encUInt32 values.length ++ (values.flatMap encUInt32 ++ (encUInt32 aux.length ++
        ((aux.map fromI32).flatMap encUInt32 ++ after))))) = buf
  have h1 := readUInt32_enc (buf := buf) (rest := values.flatMap encUInt32 ++ (encUInt32 aux.length ++
        ((aux.map fromI32).flatMap encUInt32 ++ after))) (i := before.length) (v := values.length) hl.1 (by rw [← hb]; simp)
  have h2 := readUInt32s_enc values hv (before ++ encUInt32 values.length) (encUInt32 aux.length ++
        ((aux.map fromI32).flatMap encUInt32 ++ after))
  have hb2 : (before ++ encUInt32 values.length) ++ (values.flatMap encUInt32 ++ (encUInt32 aux.length ++
        ((aux.map fromI32).flatMap encUInt32 ++ after))) = buf := by rw [← hb]; simp
  rw [hb2] at h2
  have h3 := readUInt32_enc (buf := buf) (rest := (aux.map fromI32).flatMap encUInt32 ++ after)
    (i := (before ++ encUInt32 values.length ++ values.flatMap encUInt32).length) (v := aux.length) hl.2 (by
      rw [← hb]
      rw [show before ++ (encUInt32 values.length ++ (values.flatMap encUInt32 ++ (encUInt32 aux.length ++
        ((aux.map fromI32).flatMap encUInt32 ++ after)))) = (before ++ encUInt32 values.length ++ values.flatMap encUInt32) ++
        (encUInt32 aux.length ++ ((aux.map fromI32).flatMap encUInt32 ++ after)) by simp, List.drop_left])
  have h4 := readUInt32s_enc (aux.map fromI32) (by
    intro v hv
    obtain ⟨a, _, rfl⟩ := List.mem_map.1 hv
    exact fromI32_lt a) (before ++ encUInt32 values.length ++ values.flatMap encUInt32 ++ encUInt32 aux.length) after
  have hb4 : (before ++ encUInt32 values.length ++ values.flatMap encUInt32 ++ encUInt32 aux.length) ++
      ((aux.map fromI32).flatMap encUInt32 ++ after) = buf := by rw [← hb]; simp
  rw [hb4] at h4
  unfold mphLoad
  simp only [h1]
  rw [show before.length + 4 = (before ++ encUInt32 values.length).length by simp [encUInt32_length], h2]
  simp only [h3]
  rw [show (before ++ encUInt32 values.length ++ values.flatMap encUInt32).length + 4 =
    (before ++ encUInt32 values.length ++ values.flatMap encUInt32 ++ encUInt32 aux.length).length by
      simp [encUInt32_length]; omega]
  rw [List.length_map] at h4
  rw [h4]
  simp only
  refine Prod.ext ?_ ?_
  · simp only
    congr 2
    rw [List.map_map]
    conv => rhs; rw [← List.map_id aux]
    apply List.map_congr_left
    intro a haux
    exact toI32_fromI32 (ha a haux).1 (ha a haux).2
  · simp [MPH.store, List.flatMap_map]

/-- C48 for tables that Build produced (up to 2^31 words): the loaded table is the same, so it answers every query as
before. -/
theorem C48_mph_built {dict : Dict} (hkeys : (dict.map Prod.fst).Nodup) (hmax : ∀ e ∈ dict, e.1 < 2 ^ 32 - 1) {order : List Nat}
    (hO : MphOrder dict order) {fuel : Nat} (hfuel : fuel < 2 ^ 31) (hn : dict.length ≤ 2 ^ 31) {m : MPH}
    (h : mphBuild dict order fuel = some m) (before after : List UInt8) :
    ∃ m' r, mphLoad ⟨before ++ m.store ++ after, before.length⟩ = (.ok m', r) ∧ m' = m ∧ ∀ word, m'.get word = m.get word := by
  obtain ⟨a, b, c⟩ := Mph.build_shape hfuel h
  refine ⟨m, _, C48_mph_roundtrip m (by omega) ?_ ?_ before after, rfl, fun _ => rfl⟩
  · have hmax' : ∀ e ∈ dict, e.1 ≠ 2 ^ 32 - 1 := fun e he => by have := hmax e he; omega
    by_cases hd : dict = []
    · intro v hv
      rw [hd] at c
      have := List.eq_nil_of_length_eq_zero c
      rw [this] at hv; cases hv
    · have hpos : 0 < dict.length := List.length_pos_of_ne_nil hd
      have hsub : dict.map Prod.fst ⊆ m.values := by
        intro key hkey
        obtain ⟨e, he, rfl⟩ := List.mem_map.1 hkey
        obtain ⟨k', hk', hg'⟩ := Mph.get_total a b c hpos e.2
        rw [Mph.build_spec hkeys hmax' hO hfuel h e he] at hg'
        injection hg' with hg'
        rw [hg']; exact hk'
      have hperm : (dict.map Prod.fst).Perm m.values :=
        (hkeys.subperm hsub).perm_of_length_le (by rw [c]; simp)
      intro v hv
      obtain ⟨e, he, rfl⟩ := List.mem_map.1 (hperm.mem_iff.2 hv)
      have := hmax e he
      omega
  · intro x hx
    have := a x hx
    omega

end Verif.Props
