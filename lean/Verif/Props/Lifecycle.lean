import Verif.Model.Lifecycle
/-!
Property theorems C73 (the signal to reload is not lost and not fatal) and C74 (orderly shutdown) —
internal/suggest/api/app.go, internal/http/http_server.go.

`ReflTransGen ServerNext s s'` — `s'` is reached from `s` by any steps of the process and of the world (signals, clients,
other processes), in any order.
-/
namespace Verif.Props
open Verif Relation

theorem files_step {a : ServerActor} {s s' : ServerState} (h : ServerStep a s s') : s.files ≤ s'.files := by
  cases h <;> simp

/-- What holds in all reachable states: the goroutine for the signals has been started when the server is started. -/
theorem started {v : Nat} {s : ServerState} (h : ReflTransGen ServerNext (serverInit v) s) :
    (s.listener = .none → s.main ≠ .listen ∧ s.main ≠ .serving) ∧ (s.listener ≠ .none → s.main ≠ .start ∧ s.main ≠ .configure ∧ s.main ≠ .spawn) := by
  induction h with
  | refl => simp [serverInit]
  | tail _ hs ih =>
    obtain ⟨a, hs⟩ := hs
    cases hs <;> simp_all

/-- Once the channel for SIGHUP is registered it stays registered. -/
theorem catchesHup_reach {v : Nat} {s s' : ServerState} (hv : ReflTransGen ServerNext (serverInit v) s)
    (h : ReflTransGen ServerNext s s') (hc : s.catchesHup = true) : s'.catchesHup = true := by
  induction h with
  | refl => exact hc
  | tail hr hs ih =>
    have hst := (started (hv.trans hr)).2
    obtain ⟨a, hs⟩ := hs
    cases hs with
    | spawn hm =>
      exact absurd hm (hst (fun e => by simp [ServerState.catchesHup, e] at ih)).2.2
    | _ => simp_all [ServerState.catchesHup]

theorem catchesTerm_step {v : Nat} {a : ServerActor} {s s' : ServerState} (hv : ReflTransGen ServerNext (serverInit v) s)
    (h : ServerStep a s s') (hc : s.catchesTerm = true) : s'.catchesTerm = true := by
  have hst := (started hv).2
  cases h with
  | spawn hm =>
    exact absurd hm (hst (fun e => by simp [ServerState.catchesTerm, e] at hc)).2.2
  | _ => simp_all [ServerState.catchesTerm]

/-- **C73** A SIGHUP that the process catches is not lost, whatever happens at the same time: as long as the process runs
either it is still waiting in the channel, or a reload has begun after it was sent — which reads the files as they were when
it was sent, or newer ones. -/
theorem C73_not_lost {s s' : ServerState} (h : ReflTransGen ServerNext { s with hup := true } s') :
    s'.hup = true ∨ ∃ v ∈ s'.reloads.drop s.reloads.length, s.files ≤ v := by
  have key : s.files ≤ s'.files ∧ s.reloads.length ≤ s'.reloads.length ∧
      (s'.hup = true ∨ ∃ v ∈ s'.reloads.drop s.reloads.length, s.files ≤ v) := by
    induction h with
    | refl => exact ⟨Nat.le_refl _, Nat.le_refl _, .inl rfl⟩
    | tail _ hs ih =>
      obtain ⟨a, hs⟩ := hs
      obtain ⟨h1, h2, h3⟩ := ih
      have hf := files_step hs
      cases hs with
      | beginReload _ _ _ =>
        refine ⟨h1, by simp only [List.length_append]; omega, .inr ?_⟩
        rw [List.drop_append_of_le_length h2]
        exact ⟨_, List.mem_append_right _ (List.mem_singleton.2 rfl), h1⟩
      | sighup _ _ => exact ⟨h1, h2, .inl rfl⟩
      | _ => exact ⟨Nat.le_trans h1 hf, h2, h3⟩
  exact key.2.2

/-- The number of steps the process can make on its own. -/
def stepsLeft (s : ServerState) : Nat :=
  (match s.main with | .start => 6 | .configure => 5 | .spawn => 4 | .listen => 2 | .serving => 1 | _ => 0) * 1 +
  (match s.main with | .start => 4 | .configure => 4 | .spawn => 4 | _ => 0) +
  (match s.listener with | .none => 0 | .started => 4 | .hupSet => 3 | .waiting => 0 | .reloading => 1) +
  (if s.hup then 2 else 0) + (if s.term then 1 else 0) + (if s.shutdown then 0 else 1) +
  (s.requests.filter (· = .active)).length

theorem active_set {l : List RequestState} {i : Nat} (h : l[i]? = some .active) :
    ((l.set i .answered).filter (· = .active)).length + 1 = (l.filter (· = .active)).length := by
  induction l generalizing i with
  | nil => simp at h
  | cons x l ih =>
    cases i with
    | zero =>
      simp only [List.getElem?_cons_zero, Option.some.injEq] at h
      subst h
      simp
    | succ i =>
      simp only [List.getElem?_cons_succ] at h
      have := ih h
      simp only [List.set_cons_succ, List.filter_cons]
      split <;> simp_all

theorem active_cut (l : List RequestState) : ((cutRequests l).filter (· = .active)).length = 0 := by
  unfold cutRequests
  rw [List.length_eq_zero_iff, List.filter_eq_nil_iff]
  intro x hx
  obtain ⟨y, _, rfl⟩ := List.mem_map.1 hx
  split <;> simp_all

theorem process_step_decreases {s s' : ServerState} (h : ServerStep .process s s') : stepsLeft s' < stepsLeft s := by
  cases h with
  | answer _ hi =>
    have := active_set hi
    simp only [stepsLeft]
    omega
  | closed hm hs =>
    have := active_cut s.requests
    rcases hm with hm | hm <;> simp only [stepsLeft, hm, this] <;> omega
  | spawn hm =>
    simp only [stepsLeft, hm]
    cases s.listener <;> simp only <;> omega
  | _ => simp_all [stepsLeft]

/-- **C73** … and the process does not run for ever without anything happening outside: every run of its own steps ends. -/
theorem C73_settles (f : Nat → ServerState) : ¬ ∀ i, ServerStep .process (f i) (f (i + 1)) := by
  intro h
  have : ∀ i, stepsLeft (f i) + i ≤ stepsLeft (f 0) := by
    intro i
    induction i with
    | zero => simp
    | succ i ih =>
      have := process_step_decreases (h i)
      omega
  have := this (stepsLeft (f 0) + 1)
  omega

/-- **C73** … and when it has come to rest (it runs and can make no step) after a caught SIGHUP, a reload has begun after the
signal was sent: with C70 the current files are served. -/
theorem C73_reload_follows {v : Nat} {s s' : ServerState} (hreach : ReflTransGen ServerNext (serverInit v) s) (hr : s.running = true) (hc : s.catchesHup = true)
    (h : ReflTransGen ServerNext { s with hup := true } s') (hr' : s'.running = true) (hrest : ∀ t, ¬ ServerStep .process s' t) :
    ∃ v ∈ s'.reloads.drop s.reloads.length, s.files ≤ v := by
  rcases C73_not_lost h with hh | h'
  · exfalso
    have hc' : s'.catchesHup = true := catchesHup_reach (hreach.tail ⟨_, .sighup hr hc⟩) h hc
    cases hl : s'.listener with
    | none => simp [ServerState.catchesHup, hl] at hc'
    | started => simp [ServerState.catchesHup, hl] at hc'
    | hupSet => exact hrest _ (.notifyTerm hr' hl)
    | waiting => exact hrest _ (.beginReload hr' hl hh)
    | reloading => exact hrest _ (.endReload hr' hl)
  · exact h'

/-- **C73** (partial) Once the channel for SIGHUP is registered no SIGHUP ends the process: the only signal that can still kill
it is a SIGTERM or SIGINT before the channel for those is registered.

Missing: before. That is false, see `C73_early_signal_kills`. -/
theorem C73_not_fatal_partial {v : Nat} {s s' s'' : ServerState} (hreach : ReflTransGen ServerNext (serverInit v) s) (hc : s.catchesHup = true) (h : ReflTransGen ServerNext s s')
    (hs : ServerStep .world s' s'') (hk : s''.main = .killed) (hk' : s'.main ≠ .killed) : s'.catchesTerm = false := by
  have hc' : s'.catchesHup = true := catchesHup_reach hreach h hc
  cases hs <;> simp_all

/-- **C73** is false: the PID file is written before the indexes are built, the channel for SIGHUP is registered afterwards. An
indexer that reads the PID file meanwhile and sends its SIGHUP ends the server. -/
theorem C73_early_signal_kills : ∃ s s' : ServerState, ReflTransGen ServerNext (serverInit 0) s ∧ s.pidFile = true ∧
    s.running = true ∧ ServerStep .world s s' ∧ s'.main = .killed := by
  refine ⟨{ serverInit 0 with main := .configure, pidFile := true }, _, .single ⟨_, .writePid rfl⟩, rfl, rfl, .sighupKills rfl rfl, rfl⟩

/-- A server that serves and waits for signals. -/
def servingState : ServerState := { serverInit 0 with main := .serving, listener := .waiting, pidFile := true }

theorem serving_reachable : ReflTransGen ServerNext (serverInit 0) servingState :=
  ((((((ReflTransGen.single ⟨_, .writePid rfl⟩).tail ⟨_, .configured rfl⟩).tail ⟨_, .spawn rfl⟩).tail ⟨_, .notifyHup rfl rfl⟩).tail
    ⟨_, .notifyTerm rfl rfl⟩).tail ⟨_, .listen rfl rfl⟩)

/-- Non-vacuity: the files are changed and SIGHUP is sent while a reload runs; the process comes to rest after a second
reload, which read the changed files. -/
example : ∃ s s', ReflTransGen ServerNext (serverInit 0) s ∧ s.running = true ∧ s.catchesHup = true ∧ s.listener = .reloading ∧ s.files = 1 ∧
    ReflTransGen ServerNext { s with hup := true } s' ∧ s'.running = true ∧ (∀ t, ¬ ServerStep .process s' t) ∧ s'.reloads = [0, 1] := by
  refine ⟨{ servingState with listener := .reloading, files := 1, reloads := [0] },
    { servingState with files := 1, reloads := [0, 1] },
    ((serving_reachable.tail ⟨_, .sighup rfl rfl⟩).tail ⟨_, .beginReload rfl rfl rfl⟩).tail ⟨_, .change⟩, rfl, rfl, rfl, rfl,
    ((ReflTransGen.single ⟨_, .endReload rfl rfl⟩).tail ⟨_, .beginReload rfl rfl rfl⟩).tail ⟨_, .endReload rfl rfl⟩, rfl, ?_, rfl⟩
  intro t h
  cases h <;> simp_all [servingState, serverInit]

/-! ### C74 -/

/-- The request `i` has been answered. -/
def Answered (s : ServerState) (i : Nat) : Prop := s.requests[i]? = some .answered

theorem cut_get {l : List RequestState} {i : Nat} {r : RequestState} (h : (cutRequests l)[i]? = some r) :
    l[i]? = some r ∨ (l[i]? = some .active ∧ r = .cut) := by
  unfold cutRequests at h
  rw [List.getElem?_map] at h
  cases hl : l[i]? with
  | none => rw [hl] at h; cases h
  | some x =>
    rw [hl] at h
    simp only [Option.map_some, Option.some.injEq] at h
    split at h <;> simp_all

/-- **C74** After a caught SIGTERM or SIGINT the process comes to rest only when it has ended, by itself: with status 0, or
with an error if it could not open its port. No further signal kills it. -/
theorem C74_terminates {v : Nat} {s s' : ServerState} (hreach : ReflTransGen ServerNext (serverInit v) s) (hr : s.running = true)
    (hc : s.catchesTerm = true) (h : ReflTransGen ServerNext { s with term := true } s')
    (hrest : ∀ t, ¬ ServerStep .process s' t) : s'.main = .exited true ∨ s'.main = .exited false := by
  have key : s'.catchesTerm = true ∧ s'.main ≠ .killed ∧ (s'.term = true ∨ s'.cancelled = true) := by
    clear hrest
    induction h with
    | refl =>
      refine ⟨hc, ?_, .inl rfl⟩
      intro e
      have e : s.main = .killed := e
      simp [ServerState.running, e] at hr
    | tail hpre hs ih =>
      obtain ⟨a, hs⟩ := hs
      obtain ⟨h1, h2, h3⟩ := ih
      refine ⟨catchesTerm_step ((hreach.tail ⟨_, .sigterm hr hc⟩).trans hpre) hs h1, ?_, ?_⟩
      · have hh : ∀ s : ServerState, s.catchesTerm = true → s.catchesHup = true := by
          intro s h; unfold ServerState.catchesTerm at h; unfold ServerState.catchesHup
          cases hl : s.listener <;> simp_all
        have := hh _ h1
        cases hs <;> simp_all
      · cases hs <;> simp_all
  obtain ⟨h1, h2, h3⟩ := key
  have hst : s'.listener ≠ .none ∧ ReflTransGen ServerNext (serverInit v) s' := by
    refine ⟨?_, (hreach.tail ⟨_, .sigterm hr hc⟩).trans h⟩
    intro e; simp [ServerState.catchesTerm, e] at h1
  obtain ⟨n1, n2, n3⟩ := (started hst.2).2 hst.1
  cases hm : s'.main with
  | start => exact absurd hm n1
  | configure => exact absurd hm n2
  | spawn => exact absurd hm n3
  | killed => exact absurd hm h2
  | exited b => cases b <;> simp
  | listen | serving =>
    exfalso
    have hrun : s'.running = true := by simp [ServerState.running, hm]
    by_cases hsd : s'.shutdown = true
    · exact hrest _ (.closed (by simp [hm]) hsd)
    simp only [Bool.not_eq_true] at hsd
    by_cases hcc : s'.cancelled = true
    · exact hrest _ (.shutdown hrun (by simp [hm]) hcc hsd)
    have ht : s'.term = true := h3.resolve_right hcc
    cases hl : s'.listener with
    | none => exact hst.1 hl
    | started => simp [ServerState.catchesTerm, hl] at h1
    | hupSet => simp [ServerState.catchesTerm, hl] at h1
    | waiting => exact hrest _ (.cancel hrun hl ht)
    | reloading => exact hrest _ (.endReload hrun hl)

/-- **C74** Once the shutdown has begun no request is accepted any more. -/
theorem C74_accepts_nothing {s s' : ServerState} (h : ReflTransGen ServerNext s s') (hs : s.shutdown = true) :
    s'.requests.length = s.requests.length := by
  have : s'.shutdown = true ∧ s'.requests.length = s.requests.length := by
    induction h with
    | refl => exact ⟨hs, rfl⟩
    | tail _ hstep ih =>
      obtain ⟨a, hstep⟩ := hstep
      cases hstep <;> simp_all [cutRequests]
  exact this.2

/-- **C74** (partial) A request that is accepted is answered or in progress as long as the process runs; only the end of the process cuts it.

Missing: the process waits for the requests in progress. That is false, see `C74_requests_cut`. -/
theorem C74_requests_partial {v : Nat} {s : ServerState} (h : ReflTransGen ServerNext (serverInit v) s) (hr : s.running = true) :
    .cut ∉ s.requests := by
  have : s.running = true → .cut ∉ s.requests := by
    clear hr
    induction h with
    | refl => simp [serverInit]
    | @tail s s' _ hstep ih =>
      intro hr'
      have hmem : ∀ {i : Nat}, RequestState.cut ∈ s.requests.set i .answered → RequestState.cut ∈ s.requests := by
        intro i hm
        rcases List.mem_or_eq_of_mem_set hm with h | h
        · exact h
        · cases h
      obtain ⟨a, hstep⟩ := hstep
      cases hstep with
      | answer h1 h2 => exact fun hm => ih h1 (hmem hm)
      | accept h1 h2 =>
        intro hm
        rcases List.mem_append.1 hm with h | h
        · exact ih (by simp [ServerState.running, h1]) h
        · simp at h
      | notConfigured _ => simp [ServerState.running] at hr'
      | noPort _ _ => simp [ServerState.running] at hr'
      | closed _ _ => simp [ServerState.running] at hr'
      | sighupKills _ _ => simp [ServerState.running] at hr'
      | sigtermKills _ _ => simp [ServerState.running] at hr'
      | writePid h1 => exact ih (by simp [ServerState.running, h1])
      | configured h1 => exact ih (by simp [ServerState.running, h1])
      | spawn h1 => exact ih (by simp [ServerState.running, h1])
      | listen h1 _ => exact ih (by simp [ServerState.running, h1])
      | shutdown h1 _ _ => exact ih h1
      | notifyHup h1 _ => exact ih h1
      | notifyTerm h1 _ => exact ih h1
      | beginReload h1 _ _ => exact ih h1
      | endReload h1 _ => exact ih h1
      | cancel h1 _ _ => exact ih h1
      | sighup h1 _ => exact ih h1
      | sigterm h1 _ => exact ih h1
      | change => exact ih hr'
  exact this hr

/-- **C74** is false: `Run` returns as soon as `Shutdown` is *called* ("Server was shutdown gracefully", status 0), it does not
wait until it is done. A request in progress when SIGTERM arrives is cut, in any state in which the server serves. -/
theorem C74_requests_cut {s : ServerState} {i : Nat} (hm : s.main = .serving) (hl : s.listener = .waiting) (hs : s.shutdown = false)
    (hi : s.requests[i]? = some .active) :
    ∃ s', ReflTransGen ServerNext { s with term := true } s' ∧ s'.main = .exited true ∧ s'.requests[i]? = some .cut := by
  have hrun : ∀ s : ServerState, s.main = .serving → s.running = true := fun s h => by simp [ServerState.running, h]
  refine ⟨{ s with term := false, cancelled := true, shutdown := true, main := .exited true, requests := cutRequests s.requests },
    ((ReflTransGen.single ⟨.process, ?_⟩ : ReflTransGen ServerNext _ { s with term := false, cancelled := true }).tail
      ⟨.process, (?_ : ServerStep _ _ { s with term := false, cancelled := true, shutdown := true })⟩).tail ⟨.process, ?_⟩, rfl, ?_⟩
  · exact .cancel (hrun _ hm) hl rfl
  · exact .shutdown (hrun _ hm) (.inr hm) rfl hs
  · exact .closed (.inr hm) rfl
  · simp only [cutRequests, List.getElem?_map, hi, Option.map_some]; rfl

/-- Non-vacuity: such a state is reached with one request. -/
example : ∃ s, ReflTransGen ServerNext (serverInit 0) s ∧ s.main = .serving ∧ s.listener = .waiting ∧ s.shutdown = false ∧
    s.requests[0]? = some .active ∧ s.running = true ∧ s.catchesTerm = true :=
  ⟨{ servingState with requests := [.active] }, serving_reachable.tail ⟨_, .accept rfl rfl⟩, rfl, rfl, rfl, rfl, rfl, rfl⟩

end Verif.Props
