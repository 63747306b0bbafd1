import Verif.Model.MPH
import Mathlib.Data.List.Perm.Subperm
import Mathlib.Data.List.Nodup
/- Proofs about the minimal perfect hash. -/
namespace Verif.Mph

theorem dict_get {dict : Dict} (hk : (dict.map Prod.fst).Nodup) {e : Nat × Bytes} (he : e ∈ dict) : dict.get e.1 = e.2 := by
  unfold Dict.get
  induction dict with
  | nil => cases he
  | cons x dict ih =>
    simp only [List.map_cons, List.nodup_cons] at hk
    rw [List.find?_cons]
    by_cases hx : x.1 = e.1
    · have : x = e := by
        rcases List.mem_cons.1 he with h | h
        · exact h.symm
        · exact absurd (List.mem_map.2 ⟨e, h, hx.symm⟩) hk.1
      subst this; simp
    · have : e ∈ dict := by
        rcases List.mem_cons.1 he with h | h
        · subst h; exact absurd rfl hx
        · exact h
      have hb : (x.1 == e.1) = false := by simpa using hx
      rw [hb]
      exact ih hk.2 this

theorem try_spec {size : Nat} {values : List Nat} {d : Nat} (ws : List Bytes) : ∀ {slots r : List Nat}, slots.Nodup →
    (∀ s ∈ slots, values.getD s maxU32 = maxU32) → mphTry size values d ws slots = some r →
    r = slots ++ ws.map (fun w => mphHash d w % size) ∧ r.Nodup ∧ ∀ s ∈ r, values.getD s maxU32 = maxU32 := by
  induction ws with
  | nil => intro slots r hn hf h; injection h with h; subst h; simpa using ⟨hn, hf⟩
  | cons w ws ih =>
    intro slots r hn hf h
    simp only [mphTry] at h
    split at h
    · cases h
    · rename_i hc
      simp only [List.contains_iff_mem, not_or, not_not] at hc
      obtain ⟨h1, h2, h3⟩ := ih (by
        rw [List.nodup_append]
        exact ⟨hn, by simp, by intro a ha b hb; simp at hb; subst hb; rintro rfl; exact hc.2 ha⟩) (by
        intro s hs
        rcases List.mem_append.1 hs with h' | h'
        · exact hf s h'
        · simp at h'; subst h'; exact hc.1) h
      exact ⟨by rw [h1]; simp, h2, h3⟩

theorem find_spec {size : Nat} {values : List Nat} {words : List Bytes} (fuel : Nat) : ∀ {d0 d : Nat} {slots : List Nat},
    1 ≤ d0 → d0 + fuel ≤ 2 ^ 31 → mphFind size values words fuel d0 = some (d, slots) →
    1 ≤ d ∧ d < 2 ^ 31 ∧ slots = words.map (fun w => mphHash d w % size) ∧ slots.Nodup ∧
      ∀ s ∈ slots, values.getD s maxU32 = maxU32 := by
  induction fuel with
  | zero => intro d0 d slots _ _ h; cases h
  | succ fuel ih =>
    intro d0 d slots h1 h2 h
    simp only [mphFind] at h
    split at h
    · rename_i s hs
      injection h with h
      injection h with e1 e2
      subst e1 e2
      obtain ⟨a, b, c⟩ := try_spec words (by simp) (by simp) hs
      exact ⟨h1, by omega, by simpa using a, b, c⟩
    · have : u32 (d0 + 1) = d0 + 1 := Nat.mod_eq_of_lt (by omega)
      rw [this] at h
      exact ih (by omega) (by omega) h

theorem fill_length (values : List Nat) (slots keys : List Nat) : (mphFill values slots keys).length = values.length := by
  induction slots generalizing values keys with
  | nil => cases keys <;> rfl
  | cons s slots ih =>
    cases keys with
    | nil => rfl
    | cons k keys => simp only [mphFill]; rw [ih]; simp

theorem fill_other (values : List Nat) (slots keys : List Nat) {i : Nat} (hi : i ∉ slots) :
    (mphFill values slots keys)[i]? = values[i]? := by
  induction slots generalizing values keys with
  | nil => cases keys <;> rfl
  | cons s slots ih =>
    cases keys with
    | nil => rfl
    | cons k keys =>
      simp only [mphFill]
      rw [ih _ _ (fun h => hi (by simp [h]))]
      rw [List.getElem?_set_ne]
      rintro rfl; exact hi (by simp)

theorem fill_at (values : List Nat) (slots keys : List Nat) (hn : slots.Nodup) (hl : ∀ s ∈ slots, s < values.length)
    {j s k : Nat} (hs : slots[j]? = some s) (hk : keys[j]? = some k) : (mphFill values slots keys)[s]? = some k := by
  induction slots generalizing values keys j with
  | nil => simp at hs
  | cons s0 slots ih =>
    cases keys with
    | nil => simp at hk
    | cons k0 keys =>
      simp only [mphFill]
      have hn' := List.nodup_cons.1 hn
      cases j with
      | zero =>
        simp at hs hk
        subst hs hk
        rw [fill_other _ _ _ hn'.1]
        exact List.getElem?_set_self (hl s0 (by simp))
      | succ j =>
        simp at hs hk
        exact ih _ _ hn'.2 (by intro s hs; simpa using hl s (by simp [hs])) hs hk

theorem fill_count (values : List Nat) (slots keys : List Nat) (hn : slots.Nodup) (hl : ∀ s ∈ slots, s < values.length)
    (hlen : slots.length = keys.length) (hfree : ∀ s ∈ slots, values.getD s maxU32 = maxU32) (hkeys : ∀ k ∈ keys, k ≠ maxU32) :
    (mphFill values slots keys).count maxU32 + slots.length = values.count maxU32 := by
  induction slots generalizing values keys with
  | nil => cases keys <;> simp [mphFill]
  | cons s slots ih =>
    cases keys with
    | nil => simp at hlen
    | cons k keys =>
      have hn' := List.nodup_cons.1 hn
      have hs := hl s (by simp)
      have := ih (values.set s k) keys hn'.2 (by intro x hx; simpa using hl x (by simp [hx])) (by simpa using hlen) (by
        intro x hx
        have hne : s ≠ x := by rintro rfl; exact hn'.1 hx
        rw [List.getD_eq_getElem?_getD, List.getElem?_set_ne hne, ← List.getD_eq_getElem?_getD]
        exact hfree x (by simp [hx])) (fun k hk => hkeys k (by simp [hk]))
      simp only [mphFill, List.length_cons]
      have hv : values[s] = maxU32 := by
        have := hfree s (by simp)
        rwa [List.getD_eq_getElem?_getD, List.getElem?_eq_getElem hs, Option.getD_some] at this
      rw [List.count_set hs] at this
      have hk := hkeys k (by simp)
      have hpos : 0 < values.count maxU32 := by
        rw [List.count_pos_iff, ← hv]; exact List.getElem_mem hs
      rw [hv] at this
      simp [hk] at this
      omega

theorem free_spec (values : List Nat) : ∀ b, (mphFree b values).length = values.count maxU32 ∧ (mphFree b values).Nodup ∧
    ∀ i, i ∈ mphFree b values ↔ b ≤ i ∧ values[i - b]? = some maxU32 := by
  induction values with
  | nil => intro b; simp [mphFree]
  | cons v values ih =>
    intro b
    obtain ⟨h1, h2, h3⟩ := ih (b + 1)
    have hmem : ∀ i, i ∈ mphFree (b + 1) values ↔ b < i ∧ (v :: values)[i - b]? = some maxU32 := by
      intro i
      rw [h3]
      constructor
      · rintro ⟨h, h'⟩
        refine ⟨h, ?_⟩
        rw [show i - b = (i - (b + 1)) + 1 by omega]; simpa using h'
      · rintro ⟨h, h'⟩
        refine ⟨h, ?_⟩
        rw [show i - b = (i - (b + 1)) + 1 by omega] at h'; simpa using h'
    simp only [mphFree]
    split
    · rename_i hv
      refine ⟨by simp [h1, hv], List.nodup_cons.2 ⟨fun h => ?_, h2⟩, ?_⟩
      · have := (hmem b).1 h; omega
      · intro i
        rw [List.mem_cons, hmem]
        constructor
        · rintro (rfl | ⟨h, h'⟩)
          · simp [hv]
          · exact ⟨by omega, h'⟩
        · rintro ⟨h, h'⟩
          by_cases hi : i = b
          · exact .inl hi
          · exact .inr ⟨by omega, h'⟩
    · rename_i hv
      refine ⟨by rw [h1, List.count_cons_of_ne hv], h2, ?_⟩
      intro i
      rw [hmem]
      constructor
      · rintro ⟨h, h'⟩; exact ⟨by omega, h'⟩
      · rintro ⟨h, h'⟩
        refine ⟨?_, h'⟩
        by_contra hi
        have : i = b := by omega
        subst this
        simp at h'; exact hv h'

section
variable {dict : Dict} (hk : (dict.map Prod.fst).Nodup) (hmax : ∀ e ∈ dict, e.1 ≠ maxU32)

/-- The bucket of a word. -/
def idx (dict : Dict) (w : Bytes) : Nat := mphHash 0 w % dict.length

/-- The progress of `Build`: the buckets `done` are placed. -/
structure Inv (dict : Dict) (done : List Nat) (aux : List Int) (values : List Nat) : Prop where
  lenA : aux.length = dict.length
  lenV : values.length = dict.length
  placed : ∀ e ∈ dict, idx dict e.2 ∈ done → (⟨aux, values⟩ : MPH).get e.2 = .ok e.1
  count : values.count maxU32 + (done.map fun i => (mphBucket dict i).length).sum = dict.length

theorem mem_bucket {i k : Nat} : k ∈ mphBucket dict i ↔ ∃ e ∈ dict, e.1 = k ∧ idx dict e.2 = i := by
  unfold mphBucket idx
  simp only [List.mem_map, List.mem_filter, beq_iff_eq]
  constructor
  · rintro ⟨e, ⟨h1, h2⟩, h3⟩; exact ⟨e, h1, h3, h2⟩
  · rintro ⟨e, h1, h3, h2⟩; exact ⟨e, ⟨h1, h2⟩, h3⟩

omit hk hmax in
theorem toI32_small {d : Nat} (h : d < 2 ^ 31) : toI32 d = d := by
  unfold toI32
  rw [Nat.mod_eq_of_lt (by omega), if_pos h]

/-- What `Get` does, given the two arrays. -/
theorem get_eq {aux : List Int} {values : List Nat} (hA : aux.length = dict.length) (hV : values.length = dict.length)
    (hpos : 0 < dict.length) (w : Bytes) : (⟨aux, values⟩ : MPH).get w =
      if aux.getD (idx dict w) 0 < 0 then mphValue ⟨aux, values⟩ (-aux.getD (idx dict w) 0 - 1)
      else mphValue ⟨aux, values⟩ ((mphHash (aux.getD (idx dict w) 0).toNat w % dict.length : Nat) : Int) := by
  unfold MPH.get idx
  simp only [hA, hV]
  rw [if_neg (Nat.ne_of_gt hpos)]
  split
  · rfl
  · rw [if_neg (Nat.ne_of_gt hpos)]

theorem mphValue_nat {aux : List Int} {values : List Nat} (i : Nat) : mphValue ⟨aux, values⟩ (i : Int) =
    match values[i]? with | some v => .ok v | none => .error .panicIndex := by
  unfold mphValue
  rw [if_pos (by omega)]
  rfl

/-- Placed entries stay placed if their aux entry stays and only free slots are filled. -/
theorem get_stable (hmax : ∀ e ∈ dict, e.1 ≠ maxU32) {aux aux' : List Int} {values values' : List Nat} (hA : aux.length = dict.length)
    (hV : values.length = dict.length) (hA' : aux'.length = dict.length) (hV' : values'.length = dict.length) {e : Nat × Bytes}
    (he : e ∈ dict) (hg : (⟨aux, values⟩ : MPH).get e.2 = .ok e.1) (h1 : aux'.getD (idx dict e.2) 0 = aux.getD (idx dict e.2) 0)
    (h2 : ∀ (i v : Nat), values[i]? = some v → v ≠ maxU32 → values'[i]? = some v) : (⟨aux', values'⟩ : MPH).get e.2 = .ok e.1 := by
  have hpos : 0 < dict.length := List.length_pos_of_mem he
  rw [get_eq hA hV hpos] at hg
  rw [get_eq hA' hV' hpos, h1]
  have hval : ∀ i : Int, mphValue ⟨aux, values⟩ i = .ok e.1 → mphValue ⟨aux', values'⟩ i = .ok e.1 := by
    intro i hi
    unfold mphValue at hi ⊢
    split at hi
    · rename_i h0
      rw [if_pos h0]
      simp only at hi ⊢
      split at hi
      · rename_i v hv
        injection hi with hi
        subst hi
        rw [h2 _ _ hv (hmax e he)]
      · cases hi
    · cases hi
  split at hg
  · rename_i hneg; rw [if_pos hneg]; exact hval _ hg
  · rename_i hneg; rw [if_neg hneg]; exact hval _ hg

include hk hmax

theorem multi_spec {fuel : Nat} (hfuel : fuel < 2 ^ 31) (order : List Nat) : ∀ {done : List Nat} {aux : List Int} {values : List Nat}
    {rest : List Nat} {aux' : List Int} {values' : List Nat}, Inv dict done aux values → (done ++ order).Nodup →
    (∀ i ∈ order, i < dict.length) →
    mphMulti dict fuel order aux values = some (rest, aux', values') →
    ∃ done', done' ++ rest = done ++ order ∧ Inv dict done' aux' values' ∧
      (rest = [] ∨ ∃ i r, rest = i :: r ∧ (mphBucket dict i).length ≤ 1) := by
  induction order with
  | nil =>
    intro done aux values rest aux' values' hI _ _ h
    simp only [mphMulti] at h
    injection h with h
    injection h with h1 h; injection h with h2 h3
    subst h1 h2 h3
    exact ⟨done, rfl, hI, .inl rfl⟩
  | cons i order ih =>
    intro done aux values rest aux' values' hI hn hlt h
    simp only [mphMulti] at h
    split at h
    · rename_i hle
      injection h with h
      injection h with h1 h; injection h with h2 h3
      subst h1 h2 h3
      exact ⟨done, rfl, hI, .inr ⟨i, order, rfl, hle⟩⟩
    · rename_i hgt
      split at h
      · cases h
      · rename_i d slots hf
        obtain ⟨hd1, hd2, hslots, hnd, hfree⟩ := find_spec fuel (by omega) (by omega) hf
        have hilt := hlt i (by simp)
        have hpos : 0 < dict.length := by omega
        -- the head of the bucket
        obtain ⟨k0, ks, hb⟩ : ∃ k0 ks, mphBucket dict i = k0 :: ks := by
          cases hb : mphBucket dict i with
          | nil => rw [hb] at hgt; simp at hgt
          | cons a b => exact ⟨a, b, rfl⟩
        have hidx0 : mphHash 0 (dict.get ((mphBucket dict i).headD 0)) % dict.length = i := by
          obtain ⟨e, he, h1, h2⟩ := mem_bucket.1 (show k0 ∈ mphBucket dict i by rw [hb]; simp)
          rw [hb, List.headD_cons, ← h1, dict_get hk he]
          exact h2
        rw [hidx0, toI32_small hd2] at h
        have hsl : ∀ s ∈ slots, s < values.length := by
          intro s hs
          rw [hslots] at hs
          obtain ⟨w, _, rfl⟩ := List.mem_map.1 hs
          rw [hI.lenV]; exact Nat.mod_lt _ hpos
        have hslen : slots.length = (mphBucket dict i).length := by rw [hslots]; simp
        have hkeys : ∀ k ∈ mphBucket dict i, k ≠ maxU32 := by
          intro k hkb
          obtain ⟨e, he, h1, _⟩ := mem_bucket.1 hkb
          rw [← h1]; exact hmax e he
        have hnd' : i ∉ done := by
          have := List.nodup_append.1 hn
          exact fun hd => this.2.2 i hd i (by simp) rfl
        have hInv : Inv dict (done ++ [i]) (aux.set i (d : Int)) (mphFill values slots (mphBucket dict i)) := by
          refine ⟨by simp [hI.lenA], by rw [fill_length]; exact hI.lenV, ?_, ?_⟩
          · intro e he hin
            rcases List.mem_append.1 hin with h1 | h1
            · refine get_stable hmax hI.lenA hI.lenV (by simp [hI.lenA]) (by rw [fill_length]; exact hI.lenV) he
                (hI.placed e he h1) ?_ ?_
              · rw [List.getD_eq_getElem?_getD, List.getElem?_set_ne, ← List.getD_eq_getElem?_getD]
                rintro rfl; exact hnd' h1
              · intro j v hj hv
                rw [fill_other]
                · exact hj
                · intro hjs
                  have := hfree j hjs
                  rw [List.getD_eq_getElem?_getD, hj] at this
                  exact hv this
            · simp only [List.mem_singleton] at h1
              rw [get_eq (by simp [hI.lenA]) (by rw [fill_length]; exact hI.lenV) hpos, h1]
              have hset : (aux.set i (d : Int)).getD i 0 = d := by
                rw [List.getD_eq_getElem?_getD, List.getElem?_set_self (by rw [hI.lenA]; exact hilt)]; rfl
              rw [hset, if_neg (by omega), Int.toNat_natCast, mphValue_nat]
              have hmem : e.1 ∈ mphBucket dict i := mem_bucket.2 ⟨e, he, rfl, h1⟩
              obtain ⟨j, hj⟩ := List.getElem?_of_mem hmem
              have hs : slots[j]? = some (mphHash d e.2 % dict.length) := by
                rw [hslots, List.getElem?_map, List.getElem?_map, hj]
                simp [dict_get hk he]
              rw [fill_at values slots _ hnd hsl hs hj]
          · have := fill_count values slots (mphBucket dict i) hnd hsl hslen hfree hkeys
            have hc := hI.count
            rw [List.map_append, List.sum_append]
            simp only [List.map_cons, List.map_nil, List.sum_cons, List.sum_nil, Nat.add_zero]
            omega
        obtain ⟨done', h1, h2, h3⟩ := ih hInv (by simpa using hn) (fun j hj => hlt j (by simp [hj])) h
        exact ⟨done', by rw [h1]; simp, h2, h3⟩

/-- The single buckets: all are placed. -/
theorem single_spec (order : List Nat) : ∀ {done free : List Nat} {aux : List Int} {values : List Nat}, Inv dict done aux values →
    (done ++ order).Nodup → (∀ i ∈ order, i < dict.length) → (∀ i ∈ order, (mphBucket dict i).length ≤ 1) →
    order.Pairwise (fun i j => (mphBucket dict j).length ≤ (mphBucket dict i).length) →
    (order.map fun i => (mphBucket dict i).length).sum ≤ free.length → free.Nodup → (∀ s ∈ free, values[s]? = some maxU32) →
    ∀ e ∈ dict, idx dict e.2 ∈ done ++ order →
      (⟨(mphSingle dict order free aux values).1, (mphSingle dict order free aux values).2⟩ : MPH).get e.2 = .ok e.1 := by
  induction order with
  | nil =>
    intro done free aux values hI _ _ _ _ _ _ _ e he hin
    have : mphSingle dict [] free aux values = (aux, values) := by unfold mphSingle; rfl
    rw [this]
    exact hI.placed e he (by simpa using hin)
  | cons i order ih =>
    intro done free aux values hI hn hlt hone hdesc hsum hfn hff e he hin
    have hsp := List.pairwise_cons.1 hdesc
    cases hb : mphBucket dict i with
    | nil =>
      have hres : mphSingle dict (i :: order) free aux values = (aux, values) := by
        cases free with
        | nil => rfl
        | cons s free => simp only [mphSingle, hb]
      rw [hres]
      apply hI.placed e he
      rcases List.mem_append.1 hin with h1 | h1
      · exact h1
      · exfalso
        have hmem : e.1 ∈ mphBucket dict (idx dict e.2) := mem_bucket.2 ⟨e, he, rfl, rfl⟩
        have hz : (mphBucket dict (idx dict e.2)).length ≤ 0 := by
          rcases List.mem_cons.1 h1 with h2 | h2
          · rw [h2, hb]; simp
          · have := hsp.1 _ h2; rw [hb] at this; simpa using this
        have := List.eq_nil_of_length_eq_zero (Nat.le_zero.1 hz)
        rw [this] at hmem; cases hmem
    | cons k ks =>
      have hks : ks = [] := by
        have := hone i (by simp)
        rw [hb] at this
        simpa using this
      subst hks
      cases free with
      | nil => simp [hb] at hsum
      | cons s free =>
        simp only [mphSingle, hb]
        obtain ⟨e0, he0, hk0, hidx0⟩ := mem_bucket.1 (show k ∈ mphBucket dict i by rw [hb]; simp)
        have hidx : mphHash 0 (dict.get k) % dict.length = i := by rw [← hk0, dict_get hk he0]; exact hidx0
        rw [hidx]
        have hilt := hlt i (by simp)
        have hpos : 0 < dict.length := by omega
        have hs := hff s (by simp)
        have hslt : s < values.length := (List.getElem?_eq_some_iff.1 hs).1
        have hnd' : i ∉ done := by
          have := List.nodup_append.1 hn
          exact fun hd => this.2.2 i hd i (by simp) rfl
        have hfn' := List.nodup_cons.1 hfn
        have hInv : Inv dict (done ++ [i]) (aux.set i (-(s : Int) - 1)) (values.set s k) := by
          refine ⟨by simp [hI.lenA], by simp [hI.lenV], ?_, ?_⟩
          · intro e he hin
            rcases List.mem_append.1 hin with h1 | h1
            · refine get_stable hmax hI.lenA hI.lenV (by simp [hI.lenA]) (by simp [hI.lenV]) he
                (hI.placed e he h1) ?_ ?_
              · rw [List.getD_eq_getElem?_getD, List.getElem?_set_ne, ← List.getD_eq_getElem?_getD]
                rintro rfl; exact hnd' h1
              · intro j v hj hv
                rw [List.getElem?_set_ne]
                · exact hj
                · rintro rfl
                  rw [hs] at hj
                  injection hj with hj
                  exact hv hj.symm
            · simp only [List.mem_singleton] at h1
              rw [get_eq (by simp [hI.lenA]) (by simp [hI.lenV]) hpos, h1]
              have hset : (aux.set i (-(s : Int) - 1)).getD i 0 = -(s : Int) - 1 := by
                rw [List.getD_eq_getElem?_getD, List.getElem?_set_self (by rw [hI.lenA]; exact hilt)]; rfl
              rw [hset, if_pos (by omega), show -(-(s : Int) - 1) - 1 = (s : Int) by omega, mphValue_nat,
                List.getElem?_set_self hslt]
              have hmem : e.1 ∈ mphBucket dict i := mem_bucket.2 ⟨e, he, rfl, h1⟩
              rw [hb] at hmem
              simp only [List.mem_singleton] at hmem
              rw [hmem]
          · have hkm : k ≠ maxU32 := by rw [← hk0]; exact hmax e0 he0
            have := fill_count values [s] [k] (by simp) (by simpa using hslt) rfl (by
              simp only [List.mem_singleton, forall_eq]
              rw [List.getD_eq_getElem?_getD, hs]; rfl) (by simpa using hkm)
            simp only [mphFill, List.length_singleton] at this
            have hc := hI.count
            rw [List.map_append, List.sum_append]
            simp only [List.map_cons, List.map_nil, List.sum_cons, List.sum_nil, Nat.add_zero, hb, List.length_singleton]
            omega
        refine ih hInv (by simpa using hn) (fun j hj => hlt j (by simp [hj])) (fun j hj => hone j (by simp [hj])) hsp.2 ?_
          hfn'.2 ?_ e he (by simpa using hin)
        · simp only [List.map_cons, List.sum_cons, hb, List.length_cons, List.length_nil] at hsum
          omega
        · intro t ht
          rw [List.getElem?_set_ne]
          · exact hff t (by simp [ht])
          · rintro rfl; exact hfn'.1 ht

omit hk hmax in
theorem sum_buckets (l : List (Nat × Bytes)) (f : Bytes → Nat) (n : Nat) (h : ∀ e ∈ l, f e.2 < n) :
    ((List.range n).map fun i => ((l.filter fun e => f e.2 == i).map Prod.fst).length).sum = l.length := by
  induction l with
  | nil => simp
  | cons e l ih =>
    have ih := ih fun x hx => h x (by simp [hx])
    have he := h e (by simp)
    have hone : ∀ m, ((List.range m).map fun i => if f e.2 == i then 1 else 0).sum = if f e.2 < m then 1 else 0 := by
      intro m
      induction m with
      | zero => simp
      | succ m ihm =>
        rw [List.range_succ, List.map_append, List.sum_append, ihm]
        simp only [List.map_cons, List.map_nil, List.sum_cons, List.sum_nil, beq_iff_eq]
        by_cases h1 : f e.2 = m
        · simp [h1]
        · by_cases h2 : f e.2 < m
          · simp [h1, h2]; omega
          · simp [h1, h2]; omega
    have hsplit : ∀ m, ((List.range m).map fun i => (((e :: l).filter fun e => f e.2 == i).map Prod.fst).length).sum =
        ((List.range m).map fun i => if f e.2 == i then 1 else 0).sum +
        ((List.range m).map fun i => ((l.filter fun e => f e.2 == i).map Prod.fst).length).sum := by
      intro m
      induction m with
      | zero => simp
      | succ m ihm =>
        simp only [List.range_succ, List.map_append, List.sum_append, ihm, List.map_cons, List.map_nil, List.sum_cons, List.sum_nil]
        by_cases h1 : f e.2 == m
        · simp only [List.filter_cons, h1]; simp; omega
        · simp only [List.filter_cons, h1]; simp; omega
    rw [hsplit, hone, ih, if_pos he]
    simp; omega

theorem build_spec {order : List Nat} (hO : MphOrder dict order) {fuel : Nat} (hfuel : fuel < 2 ^ 31) {m : MPH}
    (h : mphBuild dict order fuel = some m) : ∀ e ∈ dict, m.get e.2 = .ok e.1 := by
  intro e he
  have hpos : 0 < dict.length := List.length_pos_of_mem he
  unfold mphBuild at h
  split at h
  · cases h
  · rename_i rest aux values hm
    have hnodup : order.Nodup := hO.perm.nodup_iff.2 List.nodup_range
    have hlt : ∀ i ∈ order, i < dict.length := fun i hi => List.mem_range.1 (hO.perm.mem_iff.1 hi)
    have hI0 : Inv dict [] (List.replicate dict.length 0) (List.replicate dict.length maxU32) :=
      ⟨by simp, by simp, by simp, by simp⟩
    obtain ⟨done, h1, h2, h3⟩ := multi_spec hk hmax hfuel order hI0 (by simpa using hnodup) hlt hm
    simp only [List.nil_append] at h1
    injection h with h
    subst h
    have hdesc : rest.Pairwise (fun i j => (mphBucket dict j).length ≤ (mphBucket dict i).length) := by
      have := hO.descending
      rw [← h1] at this
      exact (List.pairwise_append.1 this).2.1
    have hone : ∀ i ∈ rest, (mphBucket dict i).length ≤ 1 := by
      rcases h3 with h3 | ⟨i, r, h3, h4⟩
      · rw [h3]; simp
      · intro j hj
        rw [h3] at hj hdesc
        rcases List.mem_cons.1 hj with rfl | hj
        · exact h4
        · exact Nat.le_trans ((List.pairwise_cons.1 hdesc).1 j hj) h4
    obtain ⟨f1, f2, f3⟩ := free_spec values 0
    have hsum : ((done ++ rest).map fun i => (mphBucket dict i).length).sum = dict.length := by
      rw [h1, (hO.perm.map _).sum_nat]
      exact sum_buckets dict (fun w => mphHash 0 w % dict.length) dict.length fun e he => Nat.mod_lt _ hpos
    rw [List.map_append, List.sum_append] at hsum
    have hc := h2.count
    refine single_spec hk hmax rest h2 (by rw [h1]; exact hnodup) (fun i hi => hlt i (by rw [← h1]; simp [hi])) hone hdesc
      (by rw [List.length_reverse, f1]; omega) (List.nodup_reverse.2 f2) ?_ e he ?_
    · intro s hs
      have := (f3 s).1 (List.mem_reverse.1 hs)
      simpa using this.2
    · rw [h1]
      exact hO.perm.mem_iff.2 (List.mem_range.2 (Nat.mod_lt _ hpos))

end

end Verif.Mph

namespace Verif.Mph

theorem find_nodup {size : Nat} {values : List Nat} {words : List Bytes} (fuel : Nat) : ∀ {d0 d : Nat} {slots : List Nat},
    mphFind size values words fuel d0 = some (d, slots) → words.Nodup := by
  induction fuel with
  | zero => intro d0 d slots h; cases h
  | succ fuel ih =>
    intro d0 d slots h
    simp only [mphFind] at h
    split at h
    · rename_i s hs
      obtain ⟨a, b, _⟩ := try_spec words (by simp) (by simp) hs
      rw [List.nil_append] at a
      rw [a] at b
      exact List.Nodup.of_map _ b
    · exact ih h

theorem multi_nodup {dict : Dict} {fuel : Nat} (order : List Nat) : ∀ {aux : List Int} {values : List Nat}
    {r : List Nat × List Int × List Nat},
    order.Pairwise (fun i j => (mphBucket dict j).length ≤ (mphBucket dict i).length) →
    mphMulti dict fuel order aux values = some r →
    ∀ i ∈ order, 2 ≤ (mphBucket dict i).length → ((mphBucket dict i).map dict.get).Nodup := by
  induction order with
  | nil => intro _ _ _ _ _ i hi; cases hi
  | cons j order ih =>
    intro aux values r hd h i hi hl
    have hsp := List.pairwise_cons.1 hd
    simp only [mphMulti] at h
    split at h
    · rename_i hle
      exfalso
      rcases List.mem_cons.1 hi with rfl | hi
      · omega
      · have := hsp.1 i hi; omega
    · split at h
      · cases h
      · rename_i d slots hf
        rcases List.mem_cons.1 hi with rfl | hi
        · exact find_nodup fuel hf
        · exact ih hsp.2 h i hi hl

/-! ### the auxiliary array stays in range -/

/-- Every entry of the auxiliary array is an int32, and the negative ones name slots. -/
def AuxOk (n : Nat) (aux : List Int) : Prop := ∀ a ∈ aux, -(n : Int) ≤ a ∧ a < 2 ^ 31

theorem auxOk_set {n : Nat} {aux : List Int} (h : AuxOk n aux) {i : Nat} {a : Int} (h1 : -(n : Int) ≤ a) (h2 : a < 2 ^ 31) :
    AuxOk n (aux.set i a) := by
  intro b hb
  rcases List.mem_or_eq_of_mem_set hb with h' | h'
  · exact h b h'
  · rw [h']; exact ⟨h1, h2⟩

theorem multi_aux {dict : Dict} {fuel : Nat} (hfuel : fuel < 2 ^ 31) (order : List Nat) : ∀ {aux : List Int} {values : List Nat}
    {rest : List Nat} {aux' : List Int} {values' : List Nat}, AuxOk dict.length aux →
    mphMulti dict fuel order aux values = some (rest, aux', values') →
    AuxOk dict.length aux' ∧ aux'.length = aux.length ∧ values'.length = values.length := by
  induction order with
  | nil =>
    intro aux values rest aux' values' hA h
    simp only [mphMulti] at h
    injection h with h; injection h with h1 h; injection h with h2 h3
    subst h2 h3; exact ⟨hA, rfl, rfl⟩
  | cons j order ih =>
    intro aux values rest aux' values' hA h
    simp only [mphMulti] at h
    split at h
    · injection h with h; injection h with h1 h; injection h with h2 h3
      subst h2 h3; exact ⟨hA, rfl, rfl⟩
    · split at h
      · cases h
      · rename_i d slots hf
        obtain ⟨hd1, hd2, _⟩ := find_spec fuel (by omega) (by omega) hf
        rw [toI32_small hd2] at h
        obtain ⟨a, b, c⟩ := ih (auxOk_set hA (a := (d : Int)) (by omega) (by omega)) h
        exact ⟨a, by simpa using b, by rw [c, fill_length]⟩

theorem single_aux {dict : Dict} (order : List Nat) : ∀ {free : List Nat} {aux : List Int} {values : List Nat},
    AuxOk dict.length aux → (∀ s ∈ free, s < dict.length) →
    AuxOk dict.length (mphSingle dict order free aux values).1 ∧
      (mphSingle dict order free aux values).1.length = aux.length ∧
      (mphSingle dict order free aux values).2.length = values.length := by
  induction order with
  | nil => intro free aux values hA _; exact ⟨hA, rfl, rfl⟩
  | cons i order ih =>
    intro free aux values hA hf
    cases free with
    | nil => exact ⟨hA, rfl, rfl⟩
    | cons s free =>
      simp only [mphSingle]
      split
      · exact ⟨hA, rfl, rfl⟩
      · rename_i k ks hb
        have hs := hf s (by simp)
        obtain ⟨a, b, c⟩ := ih (free := free) (values := values.set s k)
          (auxOk_set hA (i := mphHash 0 (dict.get k) % dict.length) (a := -(s : Int) - 1) (by omega) (by omega))
          (fun t ht => hf t (by simp [ht]))
        exact ⟨a, by simpa using b, by simpa using c⟩

theorem build_shape {dict : Dict} {order : List Nat} {fuel : Nat} (hfuel : fuel < 2 ^ 31) {m : MPH}
    (h : mphBuild dict order fuel = some m) :
    AuxOk dict.length m.auxiliary ∧ m.auxiliary.length = dict.length ∧ m.values.length = dict.length := by
  unfold mphBuild at h
  split at h
  · cases h
  · rename_i rest aux values hm
    obtain ⟨a, b, c⟩ := multi_aux hfuel order (by
      intro x hx
      rw [List.mem_replicate] at hx
      rw [hx.2]; omega) hm
    injection h with h
    subst h
    obtain ⟨_, _, f3⟩ := free_spec values 0
    have := single_aux (dict := dict) rest (free := (mphFree 0 values).reverse) (values := values) a (by
      intro s hs
      have h1 := ((f3 s).1 (List.mem_reverse.1 hs)).2
      have := (List.getElem?_eq_some_iff.1 h1).1
      rw [c] at this
      simpa using this)
    refine ⟨this.1, ?_, ?_⟩
    · rw [this.2.1, b]; simp
    · rw [this.2.2, c]; simp

/-- `Get` never panics on a table built from a nonempty dictionary. -/
theorem get_total {n : Nat} {m : MPH} (hA : AuxOk n m.auxiliary) (h1 : m.auxiliary.length = n) (h2 : m.values.length = n)
    (hn : 0 < n) (w : Bytes) : ∃ k ∈ m.values, m.get w = .ok k := by
  unfold MPH.get
  rw [if_neg (by omega)]
  simp only
  have hval : ∀ i : Int, 0 ≤ i → i < n → ∃ k ∈ m.values, mphValue m i = .ok k := by
    intro i h0 hlt
    have hl : i.toNat < m.values.length := by omega
    unfold mphValue
    rw [if_pos h0, List.getElem?_eq_getElem hl]
    exact ⟨_, List.getElem_mem hl, rfl⟩
  have hi : mphHash 0 w % m.auxiliary.length < m.auxiliary.length := Nat.mod_lt _ (by omega)
  have hmem := hA _ (List.getElem_mem hi)
  rw [List.getD_eq_getElem?_getD, List.getElem?_eq_getElem hi, Option.getD_some]
  split
  · rename_i hneg
    exact hval _ (by omega) (by omega)
  · rw [if_neg (by omega)]
    apply hval _ (by omega)
    have := Nat.mod_lt (mphHash (m.auxiliary[mphHash 0 w % m.auxiliary.length]).toNat w) (by omega : 0 < m.values.length)
    omega

end Verif.Mph
