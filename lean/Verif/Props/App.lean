import Verif.Model.App
/-!
Property theorems C70: reloading the indexes of a running application (internal/suggest/api/app.go).

`Relation.ReflTransGen AppNext s s'` — `s'` is reached from `s` by any steps of anybody: other processes that change the
files, signals and requests that start reloads, and the reloads, in any order.
-/
namespace Verif.Props
open Verif Relation
variable {C : Type}

/-- **C70** No index disappears: whatever happens (failing and overlapping reloads included), a name that is served stays
served. -/
theorem C70_never_lost {s s' : AppState C} (h : ReflTransGen AppNext s s') {n : String} (hn : s.served n ≠ none) :
    s'.served n ≠ none := by
  induction h with
  | refl => exact hn
  | tail _ hstep ih =>
    obtain ⟨a, hs⟩ := hstep
    cases hs with
    | publish _ =>
      simp only [Function.update_apply]
      split
      · exact Option.some_ne_none _
      · exact ih
    | _ => exact ih

/-- Everything built or served came from the files at some earlier moment. -/
theorem served_from_files {f : String → Except Err C} {s : AppState C} (h : ReflTransGen AppNext (appInit f) s) :
    (∀ n c, s.served n = some c → ∃ s1, ReflTransGen AppNext (appInit f) s1 ∧ ReflTransGen AppNext s1 s ∧ s1.files n = .ok c) ∧
    ∀ n c todo, Reload.built n c todo ∈ s.reloads →
      ∃ s1, ReflTransGen AppNext (appInit f) s1 ∧ ReflTransGen AppNext s1 s ∧ s1.files n = .ok c := by
  induction h with
  | refl => exact ⟨fun n c h => by simp [appInit] at h, fun n c todo h => by simp [appInit] at h⟩
  | @tail s s' hreach hstep ih =>
    obtain ⟨ih1, ih2⟩ := ih
    have lift : ∀ n c, (∃ s1, ReflTransGen AppNext (appInit f) s1 ∧ ReflTransGen AppNext s1 s ∧ s1.files n = .ok c) →
        ∃ s1, ReflTransGen AppNext (appInit f) s1 ∧ ReflTransGen AppNext s1 s' ∧ s1.files n = .ok c :=
      fun n c ⟨s1, h1, h2, h3⟩ => ⟨s1, h1, h2.tail hstep, h3⟩
    have hset : ∀ {i : Nat} {r : Reload C} {n c todo}, Reload.built n c todo ∈ s.reloads.set i r →
        Reload.built n c todo = r ∨ Reload.built n c todo ∈ s.reloads := by
      intro i r n c todo hm
      rcases List.mem_or_eq_of_mem_set hm with h | h
      · exact .inr h
      · exact .inl h
    obtain ⟨a, hs⟩ := hstep
    cases hs with
    | files f => exact ⟨fun n c h => lift n c (ih1 n c h), fun n c todo h => lift n c (ih2 n c todo h)⟩
    | start names =>
      refine ⟨fun n c h => lift n c (ih1 n c h), fun n c todo h => ?_⟩
      rcases List.mem_append.1 h with h | h
      · exact lift n c (ih2 n c todo h)
      · simp at h
    | noConfig e =>
      refine ⟨fun n c h => lift n c (ih1 n c h), fun n c todo h => ?_⟩
      rcases List.mem_append.1 h with h | h
      · exact lift n c (ih2 n c todo h)
      · simp at h
    | build hi hf =>
      refine ⟨fun n c h => lift n c (ih1 n c h), fun n c todo h => ?_⟩
      rcases hset h with h | h
      · cases h
        exact lift _ _ ⟨s, hreach, .refl, hf⟩
      · exact lift n c (ih2 n c todo h)
    | fail hi hf =>
      refine ⟨fun n c h => lift n c (ih1 n c h), fun n c todo h => ?_⟩
      rcases hset h with h | h
      · cases h
      · exact lift n c (ih2 n c todo h)
    | finish hi =>
      refine ⟨fun n c h => lift n c (ih1 n c h), fun n c todo h => ?_⟩
      rcases hset h with h | h
      · cases h
      · exact lift n c (ih2 n c todo h)
    | publish hi =>
      refine ⟨fun n c h => ?_, fun n c todo h => ?_⟩
      · simp only [Function.update_apply] at h
        split at h
        · rename_i e
          cases h
          subst e
          exact lift _ _ (ih2 _ _ _ (List.mem_of_getElem? hi))
        · exact lift n c (ih1 n c h)
      · rcases hset h with h | h
        · cases h
        · exact lift n c (ih2 n c todo h)

/-- **C70** What is served under a name is what the description of this name was, completely, at some earlier moment. -/
theorem C70_serves_a_version {f : String → Except Err C} {s : AppState C} (h : ReflTransGen AppNext (appInit f) s) {n : String}
    {c : C} (hn : s.served n = some c) :
    ∃ s1, ReflTransGen AppNext (appInit f) s1 ∧ ReflTransGen AppNext s1 s ∧ s1.files n = .ok c :=
  (served_from_files h).1 n c hn

/-- The steps of the reload `i` while nobody else acts compute `configureService`. -/
theorem alone_computes {i : Nat} {s s' : AppState C} (h : ReflTransGen (AppStep (.reload i)) s s') {names : List String}
    (h0 : s.reloads[i]? = some (.next names)) :
    s'.files = s.files ∧ ∃ done todo, names = done ++ todo ∧ (∀ n ∈ done, ∃ c, s.files n = .ok c) ∧
      ((s'.reloads[i]? = some (.next todo) ∧ s'.served = (configureService s.files done s.served).1) ∨
       (∃ n c rest, todo = n :: rest ∧ s'.reloads[i]? = some (.built n c rest) ∧ s.files n = .ok c ∧
          s'.served = (configureService s.files done s.served).1) ∨
       (∃ e n rest, todo = n :: rest ∧ s'.reloads[i]? = some (.ended (some e)) ∧ s.files n = .error e ∧
          s'.served = (configureService s.files done s.served).1) ∨
       (todo = [] ∧ s'.reloads[i]? = some (.ended none) ∧ s'.served = (configureService s.files done s.served).1)) := by
  have snoc : ∀ (done : List String) (served : String → Option C), (∀ n ∈ done, ∃ c, s.files n = .ok c) → ∀ n c, s.files n = .ok c →
      (configureService s.files (done ++ [n]) served).1 =
        Function.update (configureService s.files done served).1 n (some c) := by
    intro done
    induction done with
    | nil => intro served _ n c hc; simp [configureService, hc]
    | cons m done ih =>
      intro served hd n c hc
      obtain ⟨c', hc'⟩ := hd m (by simp)
      simp only [List.cons_append, configureService, hc']
      exact ih _ (fun x hx => hd x (by simp [hx])) n c hc
  induction h with
  | refl => exact ⟨rfl, [], names, rfl, by simp, .inl ⟨h0, rfl⟩⟩
  | @tail s1 s2 _ hstep ih =>
    obtain ⟨hf, done, todo, hn, hd, hcase⟩ := ih
    have hlt : ∀ {r : Reload C}, s1.reloads[i]? = some r → ∀ r', (s1.reloads.set i r')[i]? = some r' := by
      intro r hr r'
      rw [List.getElem?_set_self (List.getElem?_eq_some_iff.1 hr).1]
    cases hstep with
    | @build _ _ n rest c hi hfile =>
      rcases hcase with ⟨h1, h2⟩ | ⟨_, _, _, _, h1, _⟩ | ⟨_, _, _, _, h1, _⟩ | ⟨_, h1, _⟩ <;> rw [h1] at hi <;> cases hi
      refine ⟨hf, done, _, hn, hd, .inr (.inl ⟨n, c, rest, rfl, hlt h1 _, by rw [← hf]; exact hfile, h2⟩)⟩
    | @fail _ _ n rest e hi hfile =>
      rcases hcase with ⟨h1, h2⟩ | ⟨_, _, _, _, h1, _⟩ | ⟨_, _, _, _, h1, _⟩ | ⟨_, h1, _⟩ <;> rw [h1] at hi <;> cases hi
      exact ⟨hf, done, _, hn, hd, .inr (.inr (.inl ⟨e, n, rest, rfl, hlt h1 _, by rw [← hf]; exact hfile, h2⟩))⟩
    | @publish _ _ n rest c hi =>
      rcases hcase with ⟨h1, h2⟩ | ⟨m, c', rest', e, h1, hc, h2⟩ | ⟨_, _, _, _, h1, _⟩ | ⟨_, h1, _⟩ <;> rw [h1] at hi <;> cases hi
      refine ⟨hf, done ++ [n], rest, by rw [hn, e]; simp, ?_, .inl ⟨hlt h1 _, ?_⟩⟩
      · intro x hx
        rcases List.mem_append.1 hx with hx | hx
        · exact hd x hx
        · rw [List.mem_singleton.1 hx]; exact ⟨c, hc⟩
      · rw [snoc done s.served hd n c hc]
        simp only [h2]
    | finish hi =>
      rcases hcase with ⟨h1, h2⟩ | ⟨_, _, _, _, h1, _⟩ | ⟨_, _, _, _, h1, _⟩ | ⟨_, h1, _⟩ <;> rw [h1] at hi <;> cases hi
      exact ⟨hf, done, [], hn, hd, .inr (.inr (.inr ⟨rfl, hlt h1 _, h2⟩))⟩

theorem configureService_ok (files : String → Except Err C) : ∀ (names : List String) (served : String → Option C),
    (∀ n ∈ names, ∃ c, files n = .ok c) →
    (∀ n ∈ names, ∀ c, files n = .ok c → (configureService files names served).1 n = some c) ∧
    ∀ n ∉ names, (configureService files names served).1 n = served n := by
  intro names
  induction names with
  | nil => intro served _; exact ⟨by simp, fun _ _ => rfl⟩
  | cons m names ih =>
    intro served h
    obtain ⟨c, hc⟩ := h m (by simp)
    simp only [configureService, hc]
    obtain ⟨h1, h2⟩ := ih (Function.update served m (some c)) fun n hn => h n (by simp [hn])
    refine ⟨?_, ?_⟩
    · intro n hn c' hc'
      by_cases hm : n ∈ names
      · exact h1 n hm c' hc'
      · rw [h2 n hm]
        rcases List.mem_cons.1 hn with rfl | hn
        · rw [hc] at hc'; cases hc'; simp
        · exact absurd hn hm
    · intro n hn
      rw [h2 n (by simp at hn; exact hn.2), Function.update_of_ne (by simp at hn; exact hn.1)]

/-- **C70** A reload that is not disturbed and reports success: afterwards every configured name is served as its files are
now, and all other names as before (also those that have been removed from the configuration). -/
theorem C70_success_partial {i : Nat} {s s' : AppState C} (h : ReflTransGen (AppStep (.reload i)) s s') {names : List String}
    (h0 : s.reloads[i]? = some (.next names)) (h1 : s'.reloads[i]? = some (.ended none)) :
    (∀ n ∈ names, ∃ c, s.files n = .ok c ∧ s'.served n = some c) ∧ ∀ n ∉ names, s'.served n = s.served n := by
  obtain ⟨_, done, todo, hn, hd, hcase⟩ := alone_computes h h0
  rcases hcase with ⟨h2, _⟩ | ⟨_, _, _, _, h2, _⟩ | ⟨_, _, _, _, h2, _⟩ | ⟨ht, h2, hs⟩ <;> rw [h1] at h2 <;> cases h2
  subst ht
  rw [List.append_nil] at hn
  subst hn
  obtain ⟨k1, k2⟩ := configureService_ok s.files names s.served hd
  rw [hs]
  refine ⟨fun n hn => ?_, k2⟩
  obtain ⟨c, hc⟩ := hd n hn
  exact ⟨c, hc, k1 n hn c hc⟩

/-- **C70** A reload that is not disturbed and reports an error has replaced exactly the descriptions before the one that
failed. So it does not leave the service as it was, see `C70_failed_reload_changes`. -/
theorem C70_failure_partial {i : Nat} {s s' : AppState C} (h : ReflTransGen (AppStep (.reload i)) s s') {names : List String}
    (h0 : s.reloads[i]? = some (.next names)) {e : Err} (h1 : s'.reloads[i]? = some (.ended (some e))) :
    ∃ done n rest, names = done ++ n :: rest ∧ s.files n = .error e ∧
      (∀ n ∈ done, ∃ c, s.files n = .ok c ∧ s'.served n = some c) ∧ ∀ n ∉ done, s'.served n = s.served n := by
  obtain ⟨_, done, todo, hn, hd, hcase⟩ := alone_computes h h0
  rcases hcase with ⟨h2, _⟩ | ⟨_, _, _, _, h2, _⟩ | ⟨e', n, rest, ht, h2, hf, hs⟩ | ⟨ht, h2, hs⟩ <;> rw [h1] at h2 <;> cases h2
  obtain ⟨k1, k2⟩ := configureService_ok s.files done s.served hd
  refine ⟨done, n, rest, by rw [hn, ht], hf, ?_, ?_⟩
  · intro n hn
    obtain ⟨c, hc⟩ := hd n hn
    exact ⟨c, hc, by rw [hs]; exact k1 n hn c hc⟩
  · rw [hs]; exact k2

/-- **C70** A configuration that cannot be read changes nothing. -/
theorem C70_bad_config {s s' : AppState C} (h : AppStep .trigger s s') : s'.served = s.served := by
  cases h <;> rfl

/-- Files with version `v` of "a"; "b" cannot be built. -/
def brokenFiles (v : Nat) : String → Except Err Nat := fun n => if n = "a" then .ok v else .error (.other "no such file")

/-- **C70** is false: a reload that reports an error can have changed what is served (and the rest is not reloaded). -/
theorem C70_failed_reload_changes : ∃ (s s' : AppState Nat) (e : Err),
    ReflTransGen AppNext (appInit (brokenFiles 0)) s ∧ ReflTransGen (AppStep (.reload 1)) s s' ∧
    s.reloads[1]? = some (.next ["a", "b"]) ∧ s'.reloads[1]? = some (.ended (some e)) ∧
    s.served "a" = some 0 ∧ s'.served "a" = some 1 := by
  have r1 : ReflTransGen AppNext (appInit (brokenFiles 0)) _ := (ReflTransGen.refl).tail ⟨_, .start ["a"]⟩
  have r2 := r1.tail ⟨_, .build (i := 0) (n := "a") (todo := []) (c := 0) rfl rfl⟩
  have r3 := r2.tail ⟨_, .publish (i := 0) (n := "a") (todo := []) (c := 0) rfl⟩
  have r4 := r3.tail ⟨_, .finish (i := 0) rfl⟩
  have r5 := r4.tail ⟨_, .files (brokenFiles 1)⟩
  have r6 := r5.tail ⟨_, .start ["a", "b"]⟩
  have q1 := (ReflTransGen.refl (r := AppStep (.reload 1)) (a := (⟨brokenFiles 1, Function.update (fun _ => none) "a" (some 0),
    [.ended none, .next ["a", "b"]]⟩ : AppState Nat))).tail (.build (i := 1) (n := "a") (todo := ["b"]) (c := 1) rfl rfl)
  have q2 := q1.tail (.publish (i := 1) (n := "a") (todo := ["b"]) (c := 1) rfl)
  have q3 := q2.tail (.fail (i := 1) (n := "b") (todo := []) (e := .other "no such file") rfl rfl)
  exact ⟨_, _, _, r6, q3, rfl, rfl, rfl, rfl⟩

/-- Files with version `v` of everything. -/
def versionFiles (v : Nat) : String → Except Err Nat := fun _ => .ok v

/-- **C70** is false when reloads overlap: the files were changed from version 0 to version 1, then a reload was started, it
reported success, no reload is running any more — and the service serves version 0: an earlier reload had built version 0
and published it after the later reload. -/
theorem C70_overlapping_reloads_stale : ∃ (s s' : AppState Nat),
    ReflTransGen AppNext (appInit (versionFiles 0)) s ∧ s.files = versionFiles 1 ∧ s.reloads[1]? = none ∧
    ReflTransGen AppNext s s' ∧ s'.files = versionFiles 1 ∧ s'.reloads = [.ended none, .ended none] ∧ s'.served "a" = some 0 := by
  have r1 : ReflTransGen AppNext (appInit (versionFiles 0)) _ := (ReflTransGen.refl).tail ⟨_, .start ["a"]⟩
  have r2 := r1.tail ⟨_, .build (i := 0) (n := "a") (todo := []) (c := 0) rfl rfl⟩
  have r3 := r2.tail ⟨_, .files (versionFiles 1)⟩
  have q1 := (ReflTransGen.refl (r := AppNext) (a := (⟨versionFiles 1, fun _ => none, [.built "a" 0 []]⟩ : AppState Nat))).tail
    ⟨_, .start ["a"]⟩
  have q2 := q1.tail ⟨_, .build (i := 1) (n := "a") (todo := []) (c := 1) rfl rfl⟩
  have q3 := q2.tail ⟨_, .publish (i := 1) (n := "a") (todo := []) (c := 1) rfl⟩
  have q4 := q3.tail ⟨_, .finish (i := 1) rfl⟩
  have q5 := q4.tail ⟨_, .publish (i := 0) (n := "a") (todo := []) (c := 0) rfl⟩
  have q6 := q5.tail ⟨_, .finish (i := 0) rfl⟩
  exact ⟨_, _, r3, rfl, rfl, q6, rfl, rfl, rfl⟩

/-- Non-vacuity of the positive theorems: a reload of two names runs to its end. -/
example : ∃ s' : AppState Nat, ReflTransGen (AppStep (.reload 0)) ⟨versionFiles 7, fun _ => none, [.next ["a", "b"]]⟩ s' ∧
    s'.reloads[0]? = some (.ended none) ∧ s'.served "b" = some 7 :=
  ⟨_, ((((ReflTransGen.refl.tail (.build (i := 0) (n := "a") (todo := ["b"]) (c := 7) rfl rfl)).tail
    (.publish (i := 0) (n := "a") (todo := ["b"]) (c := 7) rfl)).tail
    (.build (i := 0) (n := "b") (todo := []) (c := 7) rfl rfl)).tail
    (.publish (i := 0) (n := "b") (todo := []) (c := 7) rfl)).tail (.finish (i := 0) rfl), rfl, rfl⟩

end Verif.Props
