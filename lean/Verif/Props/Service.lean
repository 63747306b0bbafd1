import Verif.Proofs.Service
/- C35, C36, C58, C59: the service. -/
namespace Verif.Props
open Spec (lastPublication SeesHistory)
variable {I D : Type}

theorem seesHistory_of {h : List (Publication I D)} {name : String} {o : Option I} {od : Option D}
    (h1 : o = (lastPublication h name).map Publication.idx) (h2 : od = (lastPublication h name).map Publication.dict) :
    SeesHistory h name o od := by
  unfold SeesHistory
  subst h1 h2
  cases lastPublication h name <;> exact ⟨rfl, rfl⟩

/-- C35. Under every schedule a reader (Suggest or Autocomplete) sees, for its dictionary name, the index and the
dictionary of the last publication in some prefix of the history of successful AddIndex calls; the prefix contains all
publications that precede the call of the reader. -/
theorem C35_published_together {s : SvcState I D} (hs : SvcReachable s) {i since : Nat} {name : String} {o : Option I}
    {od : Option D} (h : s.threads[i]? = some (.serving name since o od)) :
    ∃ k, since ≤ k ∧ k ≤ s.log.length ∧ SeesHistory (s.log.take k) name o od := by
  obtain ⟨k, h1, h2, h3, h4⟩ := (svcInv hs).threads _ (List.mem_of_getElem? h)
  exact ⟨k, h1, h2, seesHistory_of h3 h4⟩

/-- C35. In particular index and dictionary come from the same AddIndex call (goroutine `p.tid`), which has been called
with that name and has not failed. -/
theorem C35_same_build {s : SvcState I D} (hs : SvcReachable s) {i since : Nat} {name : String} {idx : I} {o : Option D}
    (h : s.threads[i]? = some (.serving name since (some idx) o)) :
    ∃ p ∈ s.log, p.name = name ∧ p.idx = idx ∧ o = some p.dict ∧
      (s.threads[p.tid]? = some (.both name p.idx p.dict) ∨ s.threads[p.tid]? = some (.added name none)) := by
  obtain ⟨k, _, _, h3⟩ := C35_published_together hs h
  unfold SeesHistory at h3
  cases hl : lastPublication (s.log.take k) name with
  | none => rw [hl] at h3; cases h3.1
  | some p =>
    rw [hl] at h3
    have hp := List.find?_some hl
    have hm := List.mem_of_find?_eq_some hl
    have hmem : p ∈ s.log := List.mem_of_mem_take (List.mem_reverse.1 hm)
    have hn : p.name = name := by simpa using hp
    refine ⟨p, hmem, hn, ?_, h3.2, ?_⟩
    · exact (Option.some.inj h3.1).symm
    · have := (svcInv hs).pubs p hmem
      unfold PubOk at this
      rwa [hn] at this

/-- C35. What `since` means: it is the length of the history when the reader was called. -/
theorem C35_since {s : SvcState I D} (name : String) :
    SvcStep s { s with threads := s.threads ++ [.reading name s.log.length] } := .callRead name

/-- C36. The step in which AddIndex fails changes nothing but the state of its own goroutine. -/
theorem C36_failing_step {s s' : SvcState I D} {i : Nat} {name : String} {e : Err} (h : SvcStep s s')
    (h0 : s.threads[i]? ≠ some (.added name (some e))) (h1 : s'.threads[i]? = some (.added name (some e))) :
    s'.indexes = s.indexes ∧ s'.dictionaries = s.dictionaries ∧ s'.log = s.log ∧ s'.writer = s.writer ∧
      s'.readers = s.readers := by
  have key : ∀ {j : Nat} {a b : SvcThread I D}, s.threads[j]? = some a →
      (s.threads.set j b)[i]? = some (.added name (some e)) → b ≠ .added name (some e) → False := by
    intro j a b hj hb hne
    rcases get_set hj hb with ⟨_, h'⟩ | ⟨_, h'⟩
    · exact hne h'.symm
    · exact h0 h'
  cases h with
  | callAdd n => rcases get_append h1 with h' | h'; exact absurd h' h0; cases h'
  | callRead n => rcases get_append h1 with h' | h'; exact absurd h' h0; cases h'
  | callList => rcases get_append h1 with h' | h'; exact absurd h' h0; cases h'
  | buildErr => exact ⟨rfl, rfl, rfl, rfl, rfl⟩
  | buildOk hj _ => exact (key hj h1 (by intro hc; cases hc)).elim
  | lock hj _ _ => exact (key hj h1 (by intro hc; cases hc)).elim
  | putIndex hj => exact (key hj h1 (by intro hc; cases hc)).elim
  | putDict hj => exact (key hj h1 (by intro hc; cases hc)).elim
  | unlock hj => exact (key hj h1 (by intro hc; cases hc)).elim
  | rlock hj _ => exact (key hj h1 (by intro hc; cases hc)).elim
  | getIndex hj => exact (key hj h1 (by intro hc; cases hc)).elim
  | getDict hj => exact (key hj h1 (by intro hc; cases hc)).elim
  | runlock hj => exact (key hj h1 (by intro hc; cases hc)).elim
  | list hj => exact (key hj h1 (by intro hc; cases hc)).elim

/-- C36. An AddIndex call that returned an error has published nothing, at no time; with C35 no reader ever sees anything
of it. -/
theorem C36_failed_not_published {s : SvcState I D} (hs : SvcReachable s) {i : Nat} {name : String} {e : Err}
    (h : s.threads[i]? = some (.added name (some e))) : ∀ p ∈ s.log, p.tid ≠ i := by
  intro p hp hi
  rcases (svcInv hs).pubs p hp with h' | h'
  · rw [hi, h] at h'; cases h'
  · rw [hi, h] at h'; injection h' with h'; injection h' with _ h'; cases h'

/-- C36. An AddIndex call that returned without error has been published under its name. -/
theorem C36_success_published {s : SvcState I D} (hs : SvcReachable s) {i : Nat} {name : String}
    (h : s.threads[i]? = some (.added name none)) : ∃ p ∈ s.log, p.tid = i ∧ p.name = name :=
  (svcInv hs).done i name h

/-- C36. AddIndexByDescription gets as far as the lock only if opening the dictionary, creating the builder and building
the index succeed. -/
theorem C36_outcome {B : Type} (od : Except Err D) (nb : D → Except Err B) (bd : B → Except Err I) (idx : I) (d : D) :
    addOutcome od nb bd = .ok (idx, d) ↔ od = .ok d ∧ ∃ b, nb d = .ok b ∧ bd b = .ok idx := by
  unfold addOutcome
  constructor
  · intro h
    cases od with
    | error e => cases h
    | ok d' =>
      cases h2 : nb d' with
      | error e => simp only [h2] at h; cases h
      | ok b =>
        cases h3 : bd b with
        | error e => simp only [h2, h3] at h; cases h
        | ok i =>
          simp only [h2, h3] at h
          injection h with h; injection h with e1 e2
          subst e1 e2
          exact ⟨rfl, b, h2, h3⟩
  · rintro ⟨rfl, b, h2, h3⟩
    simp only [h2, h3]

/-- C58, for the calls that take the lock: whenever a goroutine is about to write one of the maps, no other goroutine
but one inside GetDictionaries is about to access them. Missing: GetDictionaries (`C58_list_races`). -/
theorem C58_no_race_partial {s : SvcState I D} (hs : SvcReachable s) {i j : Nat} {a b : SvcThread I D} (hij : i ≠ j)
    (ha : s.threads[i]? = some a) (hb : s.threads[j]? = some b) (hw : a.access = .write) (hl : b ≠ .listing) :
    b.access = .none := by
  have inv := svcInv hs
  have haW : a.isW = true := by
    cases a <;> simp [SvcThread.access] at hw <;> rfl
  have hwr : s.writer = true := by
    have := count_pos (p := SvcThread.isW) ha haW
    rw [inv.nW] at this
    by_contra hc; simp [hc] at this
  by_contra hc
  have hb' : b.isW = true ∨ b.isR = true := by
    cases b <;> simp [SvcThread.access] at hc <;> first | (left; rfl) | (right; rfl) | exact absurd rfl hl
  rcases hb' with hb' | hb'
  · have := count_two (p := SvcThread.isW) ha hb hij haW hb'
    rw [inv.nW, hwr] at this
    simp at this
  · have := count_pos (p := SvcThread.isR) hb hb'
    rw [inv.nR, inv.excl hwr] at this
    omega

/-- C58 is false with GetDictionaries, which iterates over the map without a lock: while it does, AddIndex can be about to
write the same map. -/
theorem C58_list_races (idx : I) (d : D) : ∃ s : SvcState I D, SvcReachable s ∧
    s.threads[0]? = some (.half "dict" idx d) ∧ s.threads[1]? = some .listing := by
  have h0 : SvcReachable (newService : SvcState I D) := .init
  have h1 := h0.step (.callAdd "dict")
  have h2 := h1.step .callList
  have h3 := h2.step (.buildOk (i := 0) (name := "dict") (B := Unit) (od := .ok d) (nb := fun _ => .ok ())
    (bd := fun _ => .ok idx) (idx := idx) (d := d) rfl rfl)
  have h4 := h3.step (.lock (i := 0) (name := "dict") (idx := idx) (d := d) rfl rfl rfl)
  have h5 := h4.step (.putIndex (i := 0) (name := "dict") (idx := idx) (d := d) rfl)
  exact ⟨_, h5, rfl, rfl⟩

/-- The goroutine has not returned to its caller yet (a reader that has its snapshot works on its own). -/
def SvcThread.waiting : SvcThread I D → Bool
  | .added .. | .serving .. | .listed => false
  | _ => true

/-- C59. The lock never blocks for ever: as long as some call is in progress, some call can make a step. -/
theorem C59_no_deadlock {s : SvcState I D} (hs : SvcReachable s) {i : Nat} {a : SvcThread I D}
    (ha : s.threads[i]? = some a) (hw : SvcThread.waiting a = true) :
    ∃ j b, s.threads[j]? = some b ∧ ∃ c, c ≠ b ∧ ∃ s', SvcStep s s' ∧ s'.threads = s.threads.set j c := by
  have inv := svcInv hs
  by_cases hwr : s.writer = true
  · -- the holder of the write lock can go on
    have hc : 0 < s.threads.countP SvcThread.isW := by rw [inv.nW, hwr]; simp
    obtain ⟨t, ht, htw⟩ := List.countP_pos_iff.1 hc
    obtain ⟨j, hj⟩ := List.getElem?_of_mem ht
    cases t <;> simp [SvcThread.isW] at htw
    · refine ⟨j, _, hj, _, ?_, _, .putIndex hj, rfl⟩; intro hc; cases hc
    · refine ⟨j, _, hj, _, ?_, _, .putDict hj, rfl⟩; intro hc; cases hc
    · refine ⟨j, _, hj, _, ?_, _, .unlock hj, rfl⟩; intro hc; cases hc
  have hwf : s.writer = false := by simpa using hwr
  by_cases hr : s.readers = 0
  · have noR : ∀ t ∈ s.threads, t.isR = false := by
      intro t ht
      by_contra hc
      have : 0 < s.threads.countP SvcThread.isR := List.countP_pos_iff.2 ⟨t, ht, by simpa using hc⟩
      rw [inv.nR] at this; omega
    have noW : ∀ t ∈ s.threads, t.isW = false := by
      intro t ht
      by_contra hc
      have : 0 < s.threads.countP SvcThread.isW := List.countP_pos_iff.2 ⟨t, ht, by simpa using hc⟩
      rw [inv.nW, hwf] at this; simp at this
    cases a with
    | building name =>
      refine ⟨i, _, ha, _, ?_, _, .buildErr (B := Unit) (od := .error .eof) (nb := fun _ => .error .eof)
        (bd := fun _ => .error .eof) (e := .eof) ha rfl, rfl⟩; intro hc; cases hc
    | built name idx d => refine ⟨i, _, ha, _, ?_, _, .lock ha hwf hr, rfl⟩; intro hc; cases hc
    | reading name since => refine ⟨i, _, ha, _, ?_, _, .rlock ha hwf, rfl⟩; intro hc; cases hc
    | listing => refine ⟨i, _, ha, _, ?_, _, .list ha, rfl⟩; intro hc; cases hc
    | locked | half | both => have := noW _ (List.mem_of_getElem? ha); simp [SvcThread.isW] at this
    | rlocked | gotIndex | gotBoth => have := noR _ (List.mem_of_getElem? ha); simp [SvcThread.isR] at this
    | added | serving | listed => simp [SvcThread.waiting] at hw
  · have hc : 0 < s.threads.countP SvcThread.isR := by rw [inv.nR]; omega
    obtain ⟨t, ht, htr⟩ := List.countP_pos_iff.1 hc
    obtain ⟨j, hj⟩ := List.getElem?_of_mem ht
    cases t <;> simp [SvcThread.isR] at htr
    · refine ⟨j, _, hj, _, ?_, _, .getIndex hj, rfl⟩; intro hc; cases hc
    · refine ⟨j, _, hj, _, ?_, _, .getDict hj, rfl⟩; intro hc; cases hc
    · refine ⟨j, _, hj, _, ?_, _, .runlock hj, rfl⟩; intro hc; cases hc

/-- C60. A successful answer of the service pairs every candidate found on the index, in order, with the value the
dictionary of the same build has for it. -/
theorem C60_values {C V : Type} {s : SvcState I D} (hs : SvcReachable s) {i since : Nat} {name : String}
    {o : Option I} {od : Option D} (h : s.threads[i]? = some (.serving name since o od))
    (search : I → Except Err (List C)) (value : D → C → Except Err V) (l : List (C × V))
    (hl : serve o od search value = .ok l) :
    ∃ p ∈ s.log, p.name = name ∧ search p.idx = .ok (l.map Prod.fst) ∧
      ∀ cv ∈ l, value p.dict cv.1 = .ok cv.2 := by
  unfold serve at hl
  split at hl
  · rename_i idx d
    obtain ⟨p, hp, hn, hidx, hd, _⟩ := C35_same_build hs h
    subst hidx
    injection hd with hd
    subst hd
    split at hl
    · cases hl
    · rename_i cs hcs
      refine ⟨p, hp, hn, ?_⟩
      rw [hcs]
      clear hcs h
      induction cs generalizing l with
      | nil => simp at hl; subst hl; simp
      | cons c cs ih =>
        simp only [List.foldr_cons] at hl
        split at hl
        · cases hl
        · rename_i v hv
          split at hl
          · cases hl
          · rename_i l' hl'
            injection hl with hl
            subst hl
            obtain ⟨h1, h2⟩ := ih l' hl'
            injection h1 with h1
            refine ⟨by rw [List.map_cons, ← h1], ?_⟩
            intro cv hcv
            rcases List.mem_cons.1 hcv with h' | h'
            · subst h'; exact hv
            · exact h2 cv h'
  · cases hl

/-- C60. An unknown dictionary name gives an error, not a panic. -/
theorem C60_unknown {C V : Type} {s : SvcState I D} (hs : SvcReachable s) {i since : Nat} {name : String}
    {o : Option I} {od : Option D} (h : s.threads[i]? = some (.serving name since o od))
    (hn : ∀ p ∈ s.log, p.name ≠ name) (search : I → Except Err (List C)) (value : D → C → Except Err V) :
    serve o od search value = .error (.other "given dictionary is not exists") := by
  have ho : o = none := by
    cases o with
    | none => rfl
    | some idx =>
      obtain ⟨p, hp, h', _⟩ := C35_same_build hs h
      exact absurd h' (hn p hp)
  subst ho
  rfl

/-- A schedule with two builds and a reader that started between them and sees the first one. -/
example : ∃ s : SvcState Nat Nat, SvcReachable s ∧
    s.threads[1]? = some (.serving "d" 0 (some 1) (some 10)) ∧ s.threads[0]? = some (.added "d" none) ∧
    s.log.length = 1 := by
  have h0 : SvcReachable (newService : SvcState Nat Nat) := .init
  have h1 := h0.step (.callAdd "d")
  have h2 := h1.step (.callRead "d")
  have h3 := h2.step (.buildOk (i := 0) (name := "d") (B := Unit) (od := .ok 10) (nb := fun _ => .ok ())
    (bd := fun _ => .ok 1) (idx := 1) (d := 10) rfl rfl)
  have h4 := h3.step (.lock (i := 0) (name := "d") (idx := 1) (d := 10) rfl rfl rfl)
  have h5 := h4.step (.putIndex (i := 0) (name := "d") (idx := 1) (d := 10) rfl)
  have h6 := h5.step (.putDict (i := 0) (name := "d") (idx := 1) (d := 10) rfl)
  have h7 := h6.step (.unlock (i := 0) (name := "d") (idx := 1) (d := 10) rfl)
  have h8 := h7.step (.rlock (i := 1) (name := "d") (since := 0) rfl rfl)
  have h9 := h8.step (.getIndex (i := 1) (name := "d") (since := 0) rfl)
  have h10 := h9.step (.getDict (i := 1) (name := "d") (since := 0) (o := some 1) rfl)
  have h11 := h10.step (.runlock (i := 1) (name := "d") (since := 0) (o := some 1) (od := some 10) rfl)
  exact ⟨_, h11, rfl, rfl, rfl⟩

end Verif.Props
