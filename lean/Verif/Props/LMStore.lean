import Verif.Model.LMStore
import Verif.Props.MPH
import Verif.Props.LM
/- C48 for n-gram models and for the whole binary file. -/
namespace Verif.Props
open Verif.Spec

/-! ### decimal numbers -/

/-- The digits of a number, their value. -/
def decValue (l : List UInt8) (acc : Nat) : Nat := l.foldl (fun a c => 10 * a + (c.toNat - 48)) acc

def IsDigit (c : UInt8) : Prop := 48 ≤ c.toNat ∧ c.toNat ≤ 57

theorem digit_toNat {d : Nat} (h : d < 10) : (UInt8.ofNat (48 + d)).toNat = 48 + d := by
  rw [UInt8.toNat_ofNat']; omega

theorem decimal_spec (n : Nat) : (∀ c ∈ decimal n, IsDigit c) ∧ decValue (decimal n) 0 = n ∧ decimal n ≠ [] := by
  induction n using Nat.strongRecOn with
  | _ n ih =>
    unfold decimal
    split
    · rename_i h
      refine ⟨?_, ?_, by simp⟩
      · intro c hc
        simp only [List.mem_singleton] at hc
        subst hc
        unfold IsDigit; rw [digit_toNat h]; omega
      · simp only [decValue, List.foldl_cons, List.foldl_nil]
        rw [digit_toNat h]; omega
    · rename_i h
      obtain ⟨a, b, c⟩ := ih (n / 10) (by omega)
      have hd : n % 10 < 10 := Nat.mod_lt _ (by decide)
      refine ⟨?_, ?_, by simp⟩
      · intro x hx
        rcases List.mem_append.1 hx with h' | h'
        · exact a x h'
        · simp only [List.mem_singleton] at h'
          subst h'
          unfold IsDigit; rw [digit_toNat hd]; omega
      · unfold decValue at b ⊢
        rw [List.foldl_append, b]
        simp only [List.foldl_cons, List.foldl_nil]
        rw [digit_toNat hd]; omega

theorem decValue_mono (l : List UInt8) : ∀ acc, acc ≤ decValue l acc := by
  induction l with
  | nil => intro acc; exact Nat.le_refl _
  | cons c l ih =>
    intro acc
    have := ih (10 * acc + (c.toNat - 48))
    unfold decValue at this ⊢
    simp only [List.foldl_cons]
    omega

theorem scan_digits (stop : UInt8) (hs : ¬ IsDigit stop) (rest l : List UInt8) : ∀ (acc : Nat) (any : Bool),
    (∀ c ∈ l, IsDigit c) → decValue l acc < 2 ^ 32 → (any = true ∨ l ≠ []) →
    scanUint32 stop (l ++ stop :: rest) acc any = .ok (decValue l acc, l.length + 1) := by
  induction l with
  | nil =>
    intro acc any _ _ h
    have : any = true := by simpa using h
    simp [scanUint32, this, decValue]
  | cons c l ih =>
    intro acc any hd hlt _
    have hc := hd c (by simp)
    have hne : c ≠ stop := by rintro rfl; exact hs hc
    have hm := decValue_mono l (10 * acc + (c.toNat - 48))
    have hlt' : decValue l (10 * acc + (c.toNat - 48)) < 2 ^ 32 := hlt
    simp only [List.cons_append, scanUint32]
    rw [if_neg hne, if_pos (show 48 ≤ c.toNat ∧ c.toNat ≤ 57 from hc), if_pos (by omega), ih _ true (fun x hx => hd x (by simp [hx])) hlt' (.inl rfl)]
    rfl

theorem readNumber_ok {stop : UInt8} (hs : ¬ IsDigit stop) {v : Nat} (hv : v < 2 ^ 32) (pre rest : List UInt8) :
    readNumber stop ⟨pre ++ (decimal v ++ stop :: rest), pre.length⟩ =
      (.ok v, ⟨pre ++ (decimal v ++ stop :: rest), (pre ++ (decimal v ++ [stop])).length⟩) := by
  obtain ⟨a, b, c⟩ := decimal_spec v
  unfold readNumber
  simp only [List.drop_left]
  rw [scan_digits stop hs rest _ 0 false a (by rw [b]; exact hv) (.inr c), b]
  simp

/-! ### numbers of eight bytes -/

theorem decUInt64_append (a b : List UInt8) : decUInt64 (a ++ b) = decUInt64 a + 256 ^ a.length * decUInt64 b := by
  induction a with
  | nil => simp [decUInt64]
  | cons c a ih =>
    unfold decUInt64 at ih ⊢
    simp only [List.cons_append, List.foldr_cons, ih, List.length_cons, Nat.pow_succ]
    rw [Nat.mul_add, ← Nat.mul_assoc, Nat.mul_comm 256 (256 ^ a.length)]
    omega

theorem decUInt64_enc32 {v : Nat} (hv : v < 2 ^ 32) : decUInt64 (encUInt32 v) = v := by
  have := le_encUInt32 hv
  simp only [le, encUInt32] at this
  simp only [decUInt64, encUInt32, List.foldr_cons, List.foldr_nil]
  omega

theorem encUInt64_length (v : Nat) : (encUInt64 v).length = 8 := rfl

theorem decUInt64_enc {v : Nat} (hv : v < 2 ^ 64) : decUInt64 (encUInt64 v) = v := by
  unfold encUInt64
  rw [decUInt64_append, decUInt64_enc32 (Nat.mod_lt _ (by decide)), decUInt64_enc32 (by omega), encUInt32_length]
  omega

theorem decUInt64s_enc (l : List Nat) (hl : ∀ v ∈ l, v < 2 ^ 64) : decUInt64s l.length (l.flatMap encUInt64) = l := by
  induction l with
  | nil => rfl
  | cons v l ih =>
    simp only [List.length_cons, decUInt64s, List.flatMap_cons]
    rw [List.take_append_of_le_length (by rw [encUInt64_length]), List.take_of_length_le (by rw [encUInt64_length]),
      show (8 : Nat) = (encUInt64 v).length from rfl, List.drop_left, decUInt64_enc (hl v (by simp)),
      ih fun x hx => hl x (by simp [hx])]

theorem flatMap64_length (l : List Nat) : (l.flatMap encUInt64).length = 8 * l.length := by
  induction l with
  | nil => rfl
  | cons v l ih => simp only [List.flatMap_cons, List.length_append, encUInt64_length, ih, List.length_cons]; omega

theorem slice64_ok (l : List Nat) (hl : ∀ v ∈ l, v < 2 ^ 64) : byteSliceAsUint64Slice (l.flatMap encUInt64) = .ok l := by
  unfold byteSliceAsUint64Slice
  rw [flatMap64_length, if_neg (by omega), show 8 * l.length / 8 = l.length by omega, decUInt64s_enc l hl]

/-! ### vectors -/

/-- A vector whose contents fit the storage format: 64-bit numbers, a 32-bit total and less than 4 GiB of data. -/
structure Storable (s : PackedArray) : Prop where
  containers : ∀ v ∈ s.containers, v < 2 ^ 64
  values : ∀ v ∈ s.values, v < 2 ^ 64
  total : s.total < 2 ^ 32
  size : 8 * s.containers.length + 8 * s.values.length < 2 ^ 32

/-- C48, one vector: wherever in a file it is stored, loading gives the same vector and ends behind it. -/
theorem C48_vector_roundtrip (s : PackedArray) (hs : Storable s) (before after : List UInt8) :
    packedArrayLoad ⟨before ++ s.store ++ after, before.length⟩ =
      (.ok s, ⟨before ++ s.store ++ after, (before ++ s.store).length⟩) := by
  obtain ⟨C, V, t⟩ := s
  obtain ⟨hC, hV, ht, hsz⟩ := hs
  simp only at hC hV ht hsz
  have u1 : u32 (8 * C.length) = 8 * C.length := Nat.mod_eq_of_lt (by omega)
  have u2 : u32 (8 * V.length) = 8 * V.length := Nat.mod_eq_of_lt (by omega)
  have e : before ++ PackedArray.store ⟨C, V, t⟩ ++ after = before ++ (decimal (8 * C.length) ++ 32 ::
      (decimal (8 * V.length) ++ 32 :: (decimal t ++ 10 :: (C.flatMap encUInt64 ++ (V.flatMap encUInt64 ++ after))))) := by
    simp [PackedArray.store, u1, u2]
  rw [e]
  generalize hb : before ++ (decimal (8 * C.length) ++ 32 ::
      (decimal (8 * V.length) ++ 32 :: (decimal t ++ 10 :: (C.flatMap encUInt64 ++ (V.flatMap encUInt64 ++ after))))) = buf
  have n1 := readNumber_ok (stop := 32) (by unfold IsDigit; decide) (v := 8 * C.length) (by omega) before
    (decimal (8 * V.length) ++ 32 :: (decimal t ++ 10 :: (C.flatMap encUInt64 ++ (V.flatMap encUInt64 ++ after))))
  rw [hb] at n1
  have n2 := readNumber_ok (stop := 32) (by unfold IsDigit; decide) (v := 8 * V.length) (by omega)
    (before ++ (decimal (8 * C.length) ++ [32]))
    (decimal t ++ 10 :: (C.flatMap encUInt64 ++ (V.flatMap encUInt64 ++ after)))
  rw [show (before ++ (decimal (8 * C.length) ++ [32])) ++ (decimal (8 * V.length) ++ 32 ::
    (decimal t ++ 10 :: (C.flatMap encUInt64 ++ (V.flatMap encUInt64 ++ after)))) = buf by rw [← hb]; simp] at n2
  have n3 := readNumber_ok (stop := 10) (by unfold IsDigit; decide) (v := t) ht
    (before ++ (decimal (8 * C.length) ++ [32]) ++ (decimal (8 * V.length) ++ [32]))
    (C.flatMap encUInt64 ++ (V.flatMap encUInt64 ++ after))
  rw [show (before ++ (decimal (8 * C.length) ++ [32]) ++ (decimal (8 * V.length) ++ [32])) ++
    (decimal t ++ 10 :: (C.flatMap encUInt64 ++ (V.flatMap encUInt64 ++ after))) = buf by rw [← hb]; simp] at n3
  unfold packedArrayLoad
  simp only [n1, n2, n3]
  have hsum : u32 (8 * C.length + 8 * V.length) = 8 * C.length + 8 * V.length := Nat.mod_eq_of_lt (by omega)
  rw [hsum]
  generalize hp : before ++ (decimal (8 * C.length) ++ [32]) ++ (decimal (8 * V.length) ++ [32]) ++ (decimal t ++ [10]) = p
  have hbp : buf = p ++ (C.flatMap encUInt64 ++ (V.flatMap encUInt64 ++ after)) := by rw [← hb, ← hp]; simp
  have lC := flatMap64_length C
  have lV := flatMap64_length V
  rw [if_pos (by rw [hbp]; simp only [List.length_append, lC, lV]; omega)]
  have hdata : (buf.drop p.length).take (8 * C.length + 8 * V.length) = C.flatMap encUInt64 ++ V.flatMap encUInt64 := by
    rw [hbp, List.drop_left, ← List.append_assoc, List.take_append_of_le_length (by simp [lC, lV]),
      List.take_of_length_le (by simp [lC, lV])]
  rw [hdata, if_pos (by simp [lC])]
  have d1 : (C.flatMap encUInt64 ++ V.flatMap encUInt64).take (8 * C.length) = C.flatMap encUInt64 := by
    rw [← lC, List.take_left]
  have d2 : (C.flatMap encUInt64 ++ V.flatMap encUInt64).drop (8 * C.length) = V.flatMap encUInt64 := by
    rw [← lC, List.drop_left]
  rw [d1, d2, slice64_ok C hC, slice64_ok V hV]
  simp only
  refine Prod.ext rfl ?_
  simp only
  congr 1
  rw [← hp]
  simp [PackedArray.store, u1, u2, lC, lV]
  omega

theorem loadVectors_ok (vs : List PackedArray) (hs : ∀ v ∈ vs, Storable v) : ∀ (before after : List UInt8),
    loadVectors vs.length ⟨before ++ vs.flatMap PackedArray.store ++ after, before.length⟩ =
      (.ok vs, ⟨before ++ vs.flatMap PackedArray.store ++ after, (before ++ vs.flatMap PackedArray.store).length⟩) := by
  induction vs with
  | nil => intro before after; simp [loadVectors]
  | cons v vs ih =>
    intro before after
    have h1 := C48_vector_roundtrip v (hs v (by simp)) before (vs.flatMap PackedArray.store ++ after)
    have h2 := ih (fun x hx => hs x (by simp [hx])) (before ++ v.store) after
    have e : before ++ (v :: vs).flatMap PackedArray.store ++ after = before ++ v.store ++ (vs.flatMap PackedArray.store ++ after) := by
      simp
    have e2 : before ++ v.store ++ vs.flatMap PackedArray.store ++ after =
      before ++ v.store ++ (vs.flatMap PackedArray.store ++ after) := by simp
    rw [e2] at h2
    simp only [List.length_cons, loadVectors]
    rw [e, h1]
    simp only
    rw [h2]
    simp

/-- C48, n-gram models of up to 255 orders. -/
theorem C48_model_roundtrip (vs : List PackedArray) (hn : vs.length < 256) (hs : ∀ v ∈ vs, Storable v)
    (before after : List UInt8) : modelLoad ⟨before ++ modelStore vs ++ after, before.length⟩ =
      (.ok vs, ⟨before ++ modelStore vs ++ after, (before ++ modelStore vs).length⟩) := by
  have e : before ++ modelStore vs ++ after = before ++ (modelVersion ++ (UInt8.ofNat vs.length :: (vs.flatMap PackedArray.store ++ after))) := by
    simp [modelStore]
  have hv5 : modelVersion.length = 5 := rfl
  unfold modelLoad BytesInput.read
  simp only
  rw [if_neg (by rw [e]; simp only [List.length_append, List.length_cons, hv5]; omega)]
  simp only
  have h1 : ((before ++ modelStore vs ++ after).drop before.length).take 5 = modelVersion := by
    rw [e, List.drop_left, List.take_append_of_le_length (by simp [hv5]), List.take_of_length_le (by simp [hv5])]
  rw [h1, if_neg (by simp), hv5]
  unfold BytesInput.readByte
  simp only
  rw [if_neg (by rw [e]; simp [hv5])]
  have h2 : BytesInput.byteAt (before ++ modelStore vs ++ after) (before.length + 5) = .ok vs.length := by
    unfold BytesInput.byteAt
    rw [e, List.getElem?_append_right (by omega), List.getElem?_append_right (by rw [hv5]; omega)]
    rw [show before.length + 5 - before.length - modelVersion.length = 0 by rw [hv5]; omega]
    simp only [List.getElem?_cons_zero]
    rw [UInt8.toNat_ofNat', Nat.mod_eq_of_lt (by omega)]
  rw [h2]
  simp only
  have h3 := loadVectors_ok vs hs (before ++ (modelVersion ++ [UInt8.ofNat vs.length])) after
  have e3 : before ++ (modelVersion ++ [UInt8.ofNat vs.length]) ++ vs.flatMap PackedArray.store ++ after =
      before ++ modelStore vs ++ after := by simp [modelStore]
  rw [e3] at h3
  rw [show (before ++ (modelVersion ++ [UInt8.ofNat vs.length])).length = before.length + 5 + 1 by simp [hv5]] at h3
  rw [h3]
  simp [modelStore]

/-- C48, the whole binary file: the loaded n-gram model and hash table are the stored ones. -/
theorem C48_binary_roundtrip (vs : List PackedArray) (hn : vs.length < 256) (hs : ∀ v ∈ vs, Storable v) (m : MPH)
    (hl : m.values.length < 2 ^ 32 ∧ m.auxiliary.length < 2 ^ 32)
    (hv : ∀ v ∈ m.values, v < 2 ^ 32) (ha : ∀ a ∈ m.auxiliary, -2 ^ 31 ≤ a ∧ a < 2 ^ 31) :
    lmLoad (lmStore vs m) = .ok (vs, m) := by
  have h1 := C48_model_roundtrip vs hn hs [] m.store
  have h2 := C48_mph_roundtrip m hl hv ha (modelStore vs) []
  simp only [List.nil_append, List.length_nil, List.append_nil] at h1 h2
  unfold lmLoad lmStore newBytesInput
  rw [h1]
  simp only [h2]

/-- A file with any other version is refused. -/
theorem C48_other_version_refused (r : BytesInput) (h : (r.buf.drop r.i).take 5 ≠ modelVersion) :
    ∃ e r', modelLoad r = (.error e, r') := by
  unfold modelLoad BytesInput.read
  split
  · rename_i e r' hh
    exact ⟨_, _, rfl⟩
  · rename_i v r' hh
    split at hh
    · cases hh
    · injection hh with h1 h2
      injection h1 with h1
      rw [h1] at h
      rw [if_pos h]
      exact ⟨_, _, rfl⟩

/-! ### what the reader builds can be stored -/

theorem mem_contOf {off : Nat} {G : List Grp} {v : Nat} (h : v ∈ contOf off G) : v < 2 ^ 64 := by
  induction G generalizing off with
  | nil => cases h
  | cons g G ih =>
    simp only [contOf, List.mem_cons] at h
    rcases h with rfl | h
    · exact pack_lt
    · exact ih h

theorem groups_length {nodes : List NGramNode} : (groups nodes).length ≤ nodes.length := by
  induction nodes with
  | nil => simp [groups]
  | cons n nodes ih =>
    have : groups (n :: nodes) = groupCons n (groups nodes) := rfl
    rw [this]
    cases hg : groups nodes with
    | nil => simp [groupCons]
    | cons g G =>
      rw [hg] at ih
      obtain ⟨x, l⟩ := g
      simp only [groupCons]
      split <;> simp at ih ⊢ <;> omega

theorem storable_create {nodes : List NGramNode} (h : SortedNodes nodes) (hl : nodes.length < 2 ^ 28) :
    Storable (createPackedArray nodes) := by
  have hi := invalidContext_eq
  obtain ⟨hG, hN⟩ := groups_ok h
  rw [createPackedArray_eq h (by omega)]
  have lv : (allVals (groups nodes)).length = nodes.length := by rw [allVals_length, ← allNodes_length, hN]
  have lc := groups_length (nodes := nodes)
  refine ⟨fun v hv => mem_contOf hv, ?_, totalOf_lt _ _ (by decide), ?_⟩
  · intro v hv
    obtain ⟨g, _, hg⟩ := List.mem_flatMap.1 hv
    obtain ⟨wc, _, rfl⟩ := List.mem_map.1 hg
    exact pack_lt
  · simp only [contOf_length, lv]
    omega

/-- C48. What was read from the files and stored is loaded back identical. -/
theorem C48_stored_model_identical {files : List (List (List Nat × Nat))} (hG : GoodFiles files) (hne : files ≠ [])
    (ho : files.length < 256) (hl : ∀ F ∈ files, F.length < 2 ^ 28) {dict : Dict} (hkeys : (dict.map Prod.fst).Nodup)
    (hmax : ∀ e ∈ dict, e.1 < 2 ^ 32 - 1) {order : List Nat} (hO : MphOrder dict order) {fuel : Nat} (hfuel : fuel < 2 ^ 31)
    (hn : dict.length ≤ 2 ^ 31) {m : MPH} (h : mphBuild dict order fuel = some m) :
    ∃ vs, readModel files = .ok vs ∧ lmLoad (lmStore vs m) = .ok (vs, m) := by
  obtain ⟨vs, hvs, hlen, hst⟩ : ∃ vs, readModel files = .ok vs ∧ vs.length = files.length ∧ ∀ v ∈ vs, Storable v := by
    obtain ⟨vs, ctx, h1, L⟩ := readModel_ok hG hne
    refine ⟨vs, h1, L.len, ?_⟩
    -- every vector is created from a sorted tree with as many nodes as its file has lines at most
    have key : ∀ (rest : List (List (List Nat × Nat))) (us vs : List PackedArray), readVectors us rest = .ok vs →
        (∀ F ∈ rest, F.length < 2 ^ 28 ∧ ∀ e ∈ F, e.2 < 2 ^ 32) → (∀ v ∈ us, Storable v) → ∀ v ∈ vs, Storable v := by
      intro rest
      induction rest with
      | nil => intro us vs hr _ hu; injection hr with hr; subst hr; exact hu
      | cons F rest ih =>
        intro us vs hr hF hu
        simp only [readVectors] at hr
        split at hr
        · cases hr
        · rename_i t ht
          refine ih _ vs hr (fun F' hF' => hF F' (by simp [hF'])) ?_
          intro v hv
          rcases List.mem_append.1 hv with h' | h'
          · exact hu v h'
          · simp only [List.mem_singleton] at h'
            subst h'
            have hfl := hF F (by simp)
            have tree : ∀ (F : List (List Nat × Nat)) (t t' : List NGramNode), builderPuts us t F = .ok t' →
                (∀ e ∈ F, e.2 < 2 ^ 32) → SortedNodes t → SortedNodes t' ∧ t'.length ≤ t.length + F.length := by
              intro F
              induction F with
              | nil => intro t t' h _ hs; injection h with h; subst h; exact ⟨hs, by simp⟩
              | cons e F ihF =>
                intro t t' h hc hs
                obtain ⟨g, c⟩ := e
                simp only [builderPuts] at h
                split at h
                · cases h
                · rename_i t1 ht1
                  have hp : ∀ (ps : List PackedArray) (g : List Nat) (x : Nat) (t1 : List NGramNode),
                      vectorPut c t ps g x = .ok t1 → SortedNodes t1 ∧ t1.length ≤ t.length + 1 := by
                    intro ps g
                    induction g generalizing ps with
                    | nil =>
                      intro x t1 hv
                      have : vectorPut c t ps [] x = .ok t := by cases ps <;> rfl
                      rw [this] at hv
                      injection hv with hv; subst hv; exact ⟨hs, by omega⟩
                    | cons w g ihg =>
                      intro x t1 hv
                      cases g with
                      | nil =>
                        have : vectorPut c t ps [w] x = match makeKey w x with
                          | .error e => .error e
                          | .ok key => .ok (treePut key c t) := by cases ps <;> rfl
                        rw [this] at hv
                        split at hv
                        · cases hv
                        · rename_i key hkey
                          injection hv with hv
                          subst hv
                          refine ⟨sorted_treePut hs ?_ (hc (g, c) (by simp) |> fun h => by simpa using h), length_treePut _ _ _⟩
                          unfold makeKey at hkey
                          split at hkey
                          · cases hkey
                          · injection hkey with hkey; subst hkey; exact pack_lt
                      | cons w2 g =>
                        cases ps with
                        | nil => cases hv
                        | cons p ps =>
                          simp only [vectorPut] at hv
                          split at hv
                          · cases hv
                          · exact ihg ps _ t1 hv
                  have hb : SortedNodes t1 ∧ t1.length ≤ t.length + 1 := by
                    unfold builderPut at ht1
                    split at ht1
                    · cases ht1
                    · exact hp us g _ t1 ht1
                  obtain ⟨a, b⟩ := ihF t1 t' h (fun e he => hc e (by simp [he])) hb.1
                  exact ⟨a, by simp only [List.length_cons]; omega⟩
            obtain ⟨a, b⟩ := tree F [] t ht hfl.2 ⟨by simp, by simp⟩
            exact storable_create a (by simp at b; omega)
    unfold readModel at h1
    rw [if_neg (by simpa using hne)] at h1
    exact key files [] vs h1 (fun F hF => ⟨hl F hF, hG.counts F hF⟩) (by simp)
  refine ⟨vs, hvs, ?_⟩
  obtain ⟨a, b, c⟩ := Mph.build_shape hfuel h
  refine C48_binary_roundtrip vs (by omega) hst m (by omega) ?_ ?_
  · intro v hv
    by_cases hd : dict = []
    · rw [hd] at c
      rw [List.eq_nil_of_length_eq_zero c] at hv; cases hv
    · have hmax' : ∀ e ∈ dict, e.1 ≠ 2 ^ 32 - 1 := fun e he => by have := hmax e he; omega
      have hpos : 0 < dict.length := List.length_pos_of_ne_nil hd
      have hsub : dict.map Prod.fst ⊆ m.values := by
        intro key hkey
        obtain ⟨e, he, rfl⟩ := List.mem_map.1 hkey
        obtain ⟨k', hk', hg'⟩ := Mph.get_total a b c hpos e.2
        rw [Mph.build_spec hkeys hmax' hO hfuel h e he] at hg'
        injection hg' with hg'
        rw [hg']; exact hk'
      have hperm : (dict.map Prod.fst).Perm m.values :=
        (hkeys.subperm hsub).perm_of_length_le (by rw [c]; simp)
      obtain ⟨e, he, rfl⟩ := List.mem_map.1 (hperm.mem_iff.2 hv)
      have := hmax e he
      omega
  · intro x hx
    have := a x hx
    omega

/-- C48, end to end: the model read from count files with fewer than 2^28 lines each and up to 255 orders, stored together
with a hash table built from a dictionary, is loaded back identical, so that it gives every n-gram the same score and every
word the same id. -/
theorem C48_stored_model_same {files : List (List (List Nat × Nat))} (hG : GoodFiles files) (hne : files ≠ [])
    (ho : files.length < 256) (hl : ∀ F ∈ files, F.length < 2 ^ 28) {dict : Dict} (hkeys : (dict.map Prod.fst).Nodup)
    (hmax : ∀ e ∈ dict, e.1 < 2 ^ 32 - 1) {order : List Nat} (hO : MphOrder dict order) {fuel : Nat} (hfuel : fuel < 2 ^ 31)
    (hn : dict.length ≤ 2 ^ 31) {m : MPH} (h : mphBuild dict order fuel = some m) :
    ∃ vs, readModel files = .ok vs ∧ ∃ vs' m', lmLoad (lmStore vs m) = .ok (vs', m') ∧
      (∀ g, modelScore vs' g = modelScore vs g) ∧ (∀ word, indexerGet dict m' word = indexerGet dict m word) := by
  obtain ⟨vs, h1, h2⟩ := C48_stored_model_identical hG hne ho hl hkeys hmax hO hfuel hn h
  exact ⟨vs, h1, vs, m, h2, fun _ => rfl, fun _ => rfl⟩

/-- All hypotheses of C48_stored_model_same hold for a small model and the five-word dictionary. -/
example : GoodFiles twoSentences ∧ twoSentences.length < 256 ∧ (∀ F ∈ twoSentences, F.length < 2 ^ 28) ∧
    MphOrder (ramDict fiveWords) [1, 0, 2, 3, 4] ∧ ∃ m, mphBuild (ramDict fiveWords) [1, 0, 2, 3, 4] 10 = some m :=
  ⟨twoSentences_corpus.toGoodFiles, by decide, by decide, fiveWords_order, ⟨[-5, 3, -1, 0, 0], [3, 2, 4, 0, 1]⟩, by decide +kernel⟩

/-- Beyond 4 GiB the sizes in the header wrap: a vector with 2^29 values is announced with 0 bytes of values, and loading
succeeds with a vector that has lost all its values. -/
theorem C48_size_wraps (s : PackedArray) (hC : ∀ v ∈ s.containers, v < 2 ^ 64) (hc : 8 * s.containers.length < 2 ^ 32)
    (hv : s.values.length = 2 ^ 29) (ht : s.total < 2 ^ 32) (after : List UInt8) :
    ∃ r, packedArrayLoad ⟨s.store ++ after, 0⟩ = (.ok ⟨s.containers, [], s.total⟩, r) := by
  have u1 : u32 (8 * s.containers.length) = 8 * s.containers.length := Nat.mod_eq_of_lt hc
  have u2 : u32 (8 * s.values.length) = 0 := by rw [hv]; rfl
  have e : s.store ++ after = decimal (8 * s.containers.length) ++ 32 :: (decimal 0 ++ 32 :: (decimal s.total ++ 10 ::
      (s.containers.flatMap encUInt64 ++ (s.values.flatMap encUInt64 ++ after)))) := by
    unfold PackedArray.store
    rw [u1, u2]
    simp
  rw [e]
  generalize hb : decimal (8 * s.containers.length) ++ 32 :: (decimal 0 ++ 32 :: (decimal s.total ++ 10 ::
      (s.containers.flatMap encUInt64 ++ (s.values.flatMap encUInt64 ++ after)))) = buf
  have n1 := readNumber_ok (stop := 32) (by unfold IsDigit; decide) (v := 8 * s.containers.length) hc []
    (decimal 0 ++ 32 :: (decimal s.total ++ 10 :: (s.containers.flatMap encUInt64 ++ (s.values.flatMap encUInt64 ++ after))))
  simp only [List.nil_append, List.length_nil] at n1
  have n2 := readNumber_ok (stop := 32) (by unfold IsDigit; decide) (v := 0) (by omega)
    (decimal (8 * s.containers.length) ++ [32])
    (decimal s.total ++ 10 :: (s.containers.flatMap encUInt64 ++ (s.values.flatMap encUInt64 ++ after)))
  have n3 := readNumber_ok (stop := 10) (by unfold IsDigit; decide) (v := s.total) ht
    (decimal (8 * s.containers.length) ++ [32] ++ (decimal 0 ++ [32]))
    (s.containers.flatMap encUInt64 ++ (s.values.flatMap encUInt64 ++ after))
  rw [hb] at n1
  rw [show (decimal (8 * s.containers.length) ++ [32]) ++ (decimal 0 ++ 32 :: (decimal s.total ++ 10 ::
    (s.containers.flatMap encUInt64 ++ (s.values.flatMap encUInt64 ++ after)))) = buf by rw [← hb]; simp] at n2
  rw [show (decimal (8 * s.containers.length) ++ [32] ++ (decimal 0 ++ [32])) ++ (decimal s.total ++ 10 ::
    (s.containers.flatMap encUInt64 ++ (s.values.flatMap encUInt64 ++ after))) = buf by rw [← hb]; simp] at n3
  unfold packedArrayLoad
  simp only [n1, n2, n3]
  generalize hp : decimal (8 * s.containers.length) ++ [32] ++ (decimal 0 ++ [32]) ++ (decimal s.total ++ [10]) = p
  have hbp : buf = p ++ (s.containers.flatMap encUInt64 ++ (s.values.flatMap encUInt64 ++ after)) := by rw [← hb, ← hp]; simp
  have lC := flatMap64_length s.containers
  rw [Nat.add_zero, u1, if_pos (by rw [hbp]; simp only [List.length_append, lC]; omega)]
  have hdata : (buf.drop p.length).take (8 * s.containers.length) = s.containers.flatMap encUInt64 := by
    rw [hbp, List.drop_left, ← lC, List.take_left]
  rw [hdata, if_pos (by rw [lC]), ← lC, List.take_length, List.drop_length, slice64_ok _ hC]
  exact ⟨_, rfl⟩

end Verif.Props
