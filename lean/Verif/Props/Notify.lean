import Verif.Model.Notify
import Verif.Props.App
import Verif.Props.FileSearch
/-!
Property theorems C83: what the success of `suggest indexer` says about a running server (cmd/suggest/cmd/indexer.go,
internal/suggest/api/reindex_handler.go, app.go).

`ReflTransGen (NotifyStep K msg config) s s'` — `s'` is reached from `s` by any steps of the command, the server (any number of
reloads) and other processes. `Quiet` — the steps that do not change the files.
-/
namespace Verif.Props
open Verif Relation
variable {C : Type} {K : NotifyConf} {msg : Err → Bytes} {config : List String}

/-- **C83** The command takes the answer for success exactly if the reload has returned without error, whatever the text of an
error is (also "OK"). -/
theorem C83_reply_iff (err : Option Err) : reindexReply (reindexBody msg err) = none ↔ err = none := by
  unfold reindexReply
  cases err with
  | none => simp [reindexBody]
  | some e =>
    have : reindexBody msg (some e) ≠ [79, 75] := by
      intro h
      have := congrArg List.getLast? h
      simp [reindexBody] at this
    simp [this]

/-- A step after which the files are the same. -/
def Quiet (K : NotifyConf) (msg : Err → Bytes) (config : List String) (s s' : NotifyState C) : Prop :=
  NotifyStep K msg config s s' ∧ s'.app.files = s.app.files

/-- No reload is about to publish something else than what is in the files now. -/
def NoStale (s : AppState C) : Prop := ∀ n c todo, Reload.built n c todo ∈ s.reloads → s.files n = .ok c

/-- The names are served as they are in the files. -/
def UpToDate (s : AppState C) (names : List String) : Prop := ∀ n ∈ names, ∃ c, s.files n = .ok c ∧ s.served n = some c

theorem appStep_noStale {a : AppActor} {s s' : AppState C} (h : AppStep a s s') (hf : s'.files = s.files) (hs : NoStale s) : NoStale s' := by
  intro n c todo hm
  rw [hf]
  cases h with
  | files f => exact hs n c todo hm
  | start names =>
    rcases List.mem_append.1 hm with hm | hm
    · exact hs n c todo hm
    · simp at hm
  | noConfig e =>
    rcases List.mem_append.1 hm with hm | hm
    · exact hs n c todo hm
    · simp at hm
  | build hi hfile =>
    rcases List.mem_or_eq_of_mem_set hm with hm | hm
    · exact hs n c todo hm
    · cases hm; exact hfile
  | fail hi hfile =>
    rcases List.mem_or_eq_of_mem_set hm with hm | hm
    · exact hs n c todo hm
    · cases hm
  | publish hi =>
    rcases List.mem_or_eq_of_mem_set hm with hm | hm
    · exact hs n c todo hm
    · cases hm
  | finish hi =>
    rcases List.mem_or_eq_of_mem_set hm with hm | hm
    · exact hs n c todo hm
    · cases hm

theorem appStep_upToDate {a : AppActor} {s s' : AppState C} (h : AppStep a s s') (hf : s'.files = s.files) (hs : NoStale s) {names : List String}
    (hu : UpToDate s names) : UpToDate s' names := by
  intro n hn
  obtain ⟨c, h1, h2⟩ := hu n hn
  rw [hf]
  cases h with
  | @publish _ i m todo c' hi =>
    have := hs m c' todo (List.mem_of_getElem? hi)
    simp only [Function.update_apply]
    split
    · rename_i e
      subst e
      exact ⟨c', this, rfl⟩
    · exact ⟨c, h1, h2⟩
  | _ => exact ⟨c, h1, h2⟩

/-- How far the reload `i` of `names` is, and that what it has published so far is up to date. -/
def Progress (s : AppState C) (i : Nat) (names : List String) : Prop :=
  ∃ done todo, names = done ++ todo ∧ UpToDate s done ∧
    (s.reloads[i]? = some (.next todo) ∨ (∃ n c rest, todo = n :: rest ∧ s.reloads[i]? = some (.built n c rest)) ∨
      (todo = [] ∧ s.reloads[i]? = some (.ended none)) ∨ ∃ e, s.reloads[i]? = some (.ended (some e)))

theorem appStep_progress {a : AppActor} {s s' : AppState C} (h : AppStep a s s') (hf : s'.files = s.files) (hs : NoStale s) {i : Nat}
    {names : List String} (hp : Progress s i names) : Progress s' i names := by
  obtain ⟨done, todo, hn, hu, hc⟩ := hp
  have hu' := appStep_upToDate h hf hs hu
  have hlen : i < s.reloads.length := by
    rcases hc with h | ⟨_, _, _, _, h⟩ | ⟨_, h⟩ | ⟨_, h⟩ <;> exact (List.getElem?_eq_some_iff.1 h).1
  -- a step that does not touch the reload `i`
  have same : s'.reloads[i]? = s.reloads[i]? → Progress s' i names := fun e => ⟨done, todo, hn, hu', by rw [e]; exact hc⟩
  cases h with
  | files f => exact same rfl
  | start ns => exact same (List.getElem?_append_left hlen)
  | noConfig e => exact same (List.getElem?_append_left hlen)
  | @build _ j m rest c hi hfile =>
    by_cases hj : j = i
    · subst hj
      rcases hc with h | ⟨_, _, _, _, h⟩ | ⟨_, h⟩ | ⟨_, h⟩ <;> rw [hi] at h <;> cases h
      exact ⟨done, _, hn, hu', .inr (.inl ⟨m, c, rest, rfl, by simp [hlen]⟩)⟩
    · exact same (List.getElem?_set_ne hj)
  | @fail _ j m rest e hi hfile =>
    by_cases hj : j = i
    · subst hj
      exact ⟨done, todo, hn, hu', .inr (.inr (.inr ⟨e, by simp [hlen]⟩))⟩
    · exact same (List.getElem?_set_ne hj)
  | @publish _ j m rest c hi =>
    by_cases hj : j = i
    · subst hj
      rcases hc with h | ⟨n', c', rest', e, h⟩ | ⟨_, h⟩ | ⟨_, h⟩ <;> rw [hi] at h <;> cases h
      refine ⟨done ++ [m], rest, by rw [hn, e]; simp, ?_, .inl (by simp [hlen])⟩
      intro x hx
      rcases List.mem_append.1 hx with hx | hx
      · exact hu' x hx
      · rw [List.mem_singleton.1 hx]
        exact ⟨c, hs m c rest (List.mem_of_getElem? hi), by simp⟩
    · exact same (List.getElem?_set_ne hj)
  | @finish _ j hi =>
    by_cases hj : j = i
    · subst hj
      rcases hc with h | ⟨_, _, _, _, h⟩ | ⟨_, h⟩ | ⟨_, h⟩ <;> rw [hi] at h <;> cases h
      exact ⟨done, [], hn, hu', .inr (.inr (.inl ⟨rfl, by simp [hlen]⟩))⟩
    · exact same (List.getElem?_set_ne hj)

/-- What holds from the moment the files are written: nothing old is about to be published; the reload the command asked for makes
progress; when the command has ended with success, all names are up to date. -/
def NotifyInv (K : NotifyConf) (config : List String) (s : NotifyState C) : Prop :=
  NoStale s.app ∧
  match s.cmd with
  | .writing => False
  | .waiting i => Progress s.app i config
  | .ended none => K.host = true → UpToDate s.app config
  | _ => True

theorem quiet_inv {s s' : NotifyState C} (h : Quiet K msg config s s') (hi : NotifyInv K config s) : NotifyInv K config s' := by
  obtain ⟨h, hf⟩ := h
  obtain ⟨hs, hc⟩ := hi
  cases h with
  | @other a app ha =>
    refine ⟨appStep_noStale ha hf hs, ?_⟩
    dsimp only
    generalize s.cmd = c at hc
    cases c with
    | waiting i => exact appStep_progress ha hf hs hc
    | ended e =>
      cases e with
      | none => exact fun hh => appStep_upToDate ha hf hs (hc hh)
      | some e => exact trivial
    | writing => exact hc
    | _ => exact trivial
  | write f hw => rw [hw] at hc; exact hc.elim
  | failed e hw => rw [hw] at hc; exact hc.elim
  | nothing hw => rw [hw] at hc; exact hc.elim
  | written hw => rw [hw] at hc; exact hc.elim
  | signalled hw => exact ⟨hs, trivial⟩
  | signalFails e hw => exact ⟨hs, trivial⟩
  | noHost hw hh => exact ⟨hs, fun h => by rw [hh] at h; cases h⟩
  | post hw hh =>
    refine ⟨?_, [], config, rfl, by simp [UpToDate], .inl (by simp)⟩
    intro n c todo hm
    rcases List.mem_append.1 hm with hm | hm
    · exact hs n c todo hm
    · simp at hm
  | postNoConfig e hw hh =>
    refine ⟨?_, [], config, rfl, by simp [UpToDate], .inr (.inr (.inr ⟨e, by simp⟩))⟩
    intro n c todo hm
    rcases List.mem_append.1 hm with hm | hm
    · exact hs n c todo hm
    · simp at hm
  | postFails e hw hh => exact ⟨hs, trivial⟩
  | @reply i err hw hr =>
    refine ⟨hs, ?_⟩
    rw [hw] at hc
    cases err with
    | none =>
      have : reindexReply (reindexBody msg none) = none := (C83_reply_iff none).2 rfl
      simp only [this]
      intro _
      obtain ⟨done, todo, hn, hu, hc⟩ := hc
      rcases hc with h | ⟨_, _, _, _, h⟩ | ⟨ht, h⟩ | ⟨_, h⟩ <;> rw [hr] at h <;> cases h
      subst ht
      rw [hn, List.append_nil]
      exact hu
    | some e =>
      have : reindexReply (reindexBody msg (some e)) ≠ none := fun h => by simpa using (C83_reply_iff (msg := msg) (some e)).1 h
      generalize reindexReply (reindexBody msg (some e)) = x at this
      cases x with
      | none => exact absurd rfl this
      | some x => exact trivial
  | broken e hw => exact ⟨hs, trivial⟩

theorem quiet_files {s s' : NotifyState C} (h : ReflTransGen (Quiet K msg config) s s') : s'.app.files = s.app.files := by
  induction h with
  | refl => rfl
  | tail _ hq ih => exact hq.2.trans ih

/-- **C83** If the command was given `--host` and reports success, then every configured name is served as the files are, and
stays so as long as nobody changes the files — with any other reloads at the same time. Missing: a reload that was already about to
publish an older version when the files were complete (`NoStale`), see `C83_older_reload_wins`. -/
theorem C83_success_partial (hh : K.host = true) {s s' : NotifyState C} (hc : s.cmd = .signal) (hs : NoStale s.app)
    (h : ReflTransGen (Quiet K msg config) s s') (he : s'.cmd = .ended none) :
    s'.app.files = s.app.files ∧ ∀ n ∈ config, ∃ c, s.app.files n = .ok c ∧ s'.app.served n = some c := by
  have hfiles := quiet_files h
  have hinv : NotifyInv K config s' := by
    clear he hfiles
    induction h with
    | refl => exact ⟨hs, by rw [hc]; trivial⟩
    | tail _ hq ih => exact quiet_inv hq ih
  have := hinv.2
  rw [he] at this
  refine ⟨hfiles, ?_⟩
  rw [← hfiles]
  exact this hh

/-- **C83** When no reload is running at the moment the files are complete, nothing old can be published. -/
theorem C83_idle_noStale {s : AppState C} (h : ∀ r ∈ s.reloads, ∃ e, r = .ended e) : NoStale s := by
  intro n c todo hm
  obtain ⟨e, he⟩ := h _ hm
  cases he

/-- **C83** If the command reports an error, then a job, the signal or the request has failed; a reload that fails is reported. -/
theorem C83_failure_reported {s s' : NotifyState C} (h : NotifyStep K msg config s s') {i : Nat} (hw : s.cmd = .waiting i) {e : Err}
    (hr : s.app.reloads[i]? = some (.ended (some e))) (hc : s'.cmd ≠ .waiting i) : ∃ e', s'.cmd = .ended (some e') := by
  cases h with
  | other ha => exact absurd hw hc
  | @reply j err hw' hr' =>
    rw [hw] at hw'
    cases hw'
    rw [hr] at hr'
    cases hr'
    have : reindexReply (reindexBody msg (some e)) ≠ none := fun h => by simpa using (C83_reply_iff (msg := msg) (some e)).1 h
    generalize reindexReply (reindexBody msg (some e)) = x at this
    cases x with
    | none => exact absurd rfl this
    | some x => exact ⟨x, rfl⟩
  | @broken j e' hw' => exact ⟨e', rfl⟩
  | write f hx | failed e hx | nothing hx | written hx | signalled hx | signalFails e hx | noHost hx | post hx | postNoConfig e hx | postFails e hx =>
    rw [hw] at hx; cases hx

/-- A step of the server in a state. -/
theorem other_step {s : NotifyState C} {a : AppActor} {app : AppState C} (h : AppStep a s.app app) :
    NotifyStep K msg config s { s with app := app } := .other h

/-- **C83** is false with an older reload in progress: the server had built version 0 when the command wrote version 1; the command
reported success, nobody changed the files any more, no reload is running — and version 0 is served. -/
theorem C83_older_reload_wins (msg : Err → Bytes) : ∃ (s s' : NotifyState Nat), s.cmd = .signal ∧ s.app.files = versionFiles 1 ∧
    ReflTransGen (NotifyStep ⟨false, true, true⟩ msg ["a"]) ⟨appInit (versionFiles 0), .writing⟩ s ∧
    ReflTransGen (Quiet ⟨false, true, true⟩ msg ["a"]) s s' ∧ s'.cmd = .ended none ∧
    (∀ r ∈ s'.app.reloads, ∃ e, r = .ended e) ∧ s'.app.served "a" = some 0 := by
  have r1 : ReflTransGen (NotifyStep ⟨false, true, true⟩ msg ["a"]) ⟨appInit (versionFiles 0), .writing⟩ _ :=
    (ReflTransGen.refl).tail (other_step (.start ["a"]))
  have r2 := r1.tail (other_step (.build (i := 0) (n := "a") (todo := []) (c := 0) rfl rfl))
  have r3 := r2.tail (.write (versionFiles 1) rfl)
  have r4 := r3.tail (.written rfl rfl)
  let S : List (Reload Nat) → (String → Option Nat) → NotifyAt → NotifyState Nat := fun rs sv c => ⟨⟨versionFiles 1, sv, rs⟩, c⟩
  have q1 : ReflTransGen (Quiet ⟨false, true, true⟩ msg ["a"]) (S [.built "a" 0 []] (fun _ => none) .signal)
      (S [.built "a" 0 []] (fun _ => none) .request) := (ReflTransGen.refl).tail ⟨.signalled rfl, rfl⟩
  have q2 : ReflTransGen (Quiet ⟨false, true, true⟩ msg ["a"]) _ (S [.built "a" 0 [], .next ["a"]] (fun _ => none) (.waiting 1)) :=
    q1.tail ⟨.post rfl rfl, rfl⟩
  have q3 : ReflTransGen (Quiet ⟨false, true, true⟩ msg ["a"]) _ (S [.built "a" 0 [], .built "a" 1 []] (fun _ => none) (.waiting 1)) :=
    q2.tail ⟨other_step (.build (i := 1) (n := "a") (todo := []) (c := 1) rfl rfl), rfl⟩
  have q4 : ReflTransGen (Quiet ⟨false, true, true⟩ msg ["a"]) _ (S [.built "a" 0 [], .next []]
      (Function.update (fun _ => none) "a" (some 1)) (.waiting 1)) :=
    q3.tail ⟨other_step (.publish (i := 1) (n := "a") (todo := []) (c := 1) rfl), rfl⟩
  have q5 : ReflTransGen (Quiet ⟨false, true, true⟩ msg ["a"]) _ (S [.built "a" 0 [], .ended none]
      (Function.update (fun _ => none) "a" (some 1)) (.waiting 1)) :=
    q4.tail ⟨other_step (.finish (i := 1) rfl), rfl⟩
  have q6 : ReflTransGen (Quiet ⟨false, true, true⟩ msg ["a"]) _ (S [.built "a" 0 [], .ended none]
      (Function.update (fun _ => none) "a" (some 1)) (.ended none)) :=
    q5.tail ⟨.reply (i := 1) (err := none) rfl rfl, rfl⟩
  have q7 : ReflTransGen (Quiet ⟨false, true, true⟩ msg ["a"]) _ (S [.next [], .ended none]
      (Function.update (Function.update (fun _ => none) "a" (some 1)) "a" (some 0)) (.ended none)) :=
    q6.tail ⟨other_step (.publish (i := 0) (n := "a") (todo := []) (c := 0) rfl), rfl⟩
  have q8 : ReflTransGen (Quiet ⟨false, true, true⟩ msg ["a"]) _ (S [.ended none, .ended none]
      (Function.update (Function.update (fun _ => none) "a" (some 1)) "a" (some 0)) (.ended none)) :=
    q7.tail ⟨other_step (.finish (i := 0) rfl), rfl⟩
  refine ⟨_, _, rfl, rfl, r4, q8, rfl, ?_, rfl⟩
  intro r hr
  simp only [S, List.mem_cons, List.not_mem_nil, or_false, or_self] at hr
  exact ⟨none, hr⟩

/-- **C83** is false with `--pid` alone: the command reports success although the server has not begun to load (the signal may be
lost, see C73). -/
theorem C83_signal_says_nothing (msg : Err → Bytes) : ∃ s' : NotifyState Nat,
    ReflTransGen (NotifyStep ⟨true, false, true⟩ msg ["a"]) ⟨⟨versionFiles 0, fun _ => some 0, []⟩, .writing⟩ s' ∧
    s'.cmd = .ended none ∧ s'.app.files = versionFiles 1 ∧ s'.app.reloads = [] ∧ s'.app.served "a" = some 0 := by
  have r1 : ReflTransGen (NotifyStep ⟨true, false, true⟩ msg ["a"]) (⟨⟨versionFiles 0, fun _ => some 0, []⟩, .writing⟩ : NotifyState Nat) _ :=
    (ReflTransGen.refl).tail (.write (versionFiles 1) rfl)
  have r2 := r1.tail (.written rfl rfl)
  have r3 := r2.tail (.signalled rfl)
  have r4 := r3.tail (.noHost rfl rfl)
  exact ⟨_, r4, rfl, rfl, rfl, rfl⟩

section
variable {ρ : Roaring} {G : Gob} {order : Nat → TermMap → TermMap} {splitDocs splitHeader : List UInt8 → List (List UInt8)}
  {tok : IndexDesc → Tokenizer} {flag : String}

/-- **C83** A name that is not configured: the command does nothing, and reports success. -/
theorem C83_unknown_dict {ds : List IndexDesc} (hu : ∀ d ∈ ds, ¬ Wanted flag d) {ops : List (String × JobOp)} {e : Option Err}
    (h : IndexerRun ρ G order splitDocs splitHeader tok flag ds ops e) : ops = [] ∧ e = none ∧ (ds.any fun d => chosen flag d) = false := by
  have hc : ∀ d ∈ ds, chosen flag d = false := fun d hd => by
    rw [Bool.eq_false_iff]
    exact fun h => hu d hd (chosen_iff.1 h)
  refine ⟨?_, ?_, by simpa using hc⟩
  · clear hu
    induction h with
    | nil => rfl
    | skip _ _ ih => exact ih fun d hd => hc d (by simp [hd])
    | fail h1 _ => rw [hc _ (by simp)] at h1; cases h1
    | next h1 _ _ => rw [hc _ (by simp)] at h1; cases h1
  · clear hu
    induction h with
    | nil => rfl
    | skip _ _ ih => exact ih fun d hd => hc d (by simp [hd])
    | fail h1 _ => rw [hc _ (by simp)] at h1; cases h1
    | next h1 _ _ => rw [hc _ (by simp)] at h1; cases h1

/-- **C83** … without asking the server, whatever the flags are. -/
theorem C83_unknown_not_sent (hn : K.reIndexed = false) {s s' : NotifyState C} (hc : s.cmd = .writing)
    (h : ReflTransGen (NotifyStep K msg config) s s') : s'.cmd = .writing ∨ ∃ e, s'.cmd = .ended e := by
  induction h with
  | refl => exact .inl hc
  | tail _ hstep ih =>
    cases hstep with
    | other _ => exact ih
    | write f hw => exact .inl hw
    | failed e hw => exact .inr ⟨_, rfl⟩
    | nothing hw => exact .inr ⟨_, rfl⟩
    | written hw hr => rw [hn] at hr; cases hr
    | signalled hw | signalFails e hw | noHost hw | post hw | postNoConfig e hw | postFails e hw | reply hw | broken e hw =>
      rcases ih with ih | ⟨e, ih⟩ <;> rw [hw] at ih <;> cases ih

/-- **C83** From the source files to the running server: the command has written the files (`w` was on the disc before, the server
reads what is on the disc now), was given `--host` and reports success. Then the server serves, under the name of every chosen DISC
description of its configuration, the lines of the source as dictionary and an index of these lines — now and until the files
change. Missing: as in `C83_success_partial`. -/
theorem C83_server_serves_source_partial {K : NotifyConf} {msg : Err → Bytes} {config : List String} (hh : K.host = true)
    {ds : List IndexDesc} {ops : List (String × JobOp)}
    (hr : ∀ d ∈ ds, ∀ r, d.source = some r → ∀ c ∈ r.chunks, c ≠ []) (hp : ds.Pairwise fun a b => a.place ≠ b.place)
    (hrun : IndexerRun ρ G order splitDocs splitHeader tok flag ds ops none) (w : String → DiscState)
    {s s' : NotifyState (OpenIndex × Dict)} (hc : s.cmd = .signal) (hs : NoStale s.app)
    (hfiles : ∀ d ∈ ds, d.disc = true → s.app.files d.name = openDisc G d.name (ops.foldl applyAt w d.place))
    (h : ReflTransGen (Quiet K msg config) s s') (he : s'.cmd = .ended none)
    {d : IndexDesc} (hd : d ∈ ds) (hw : Wanted flag d) (hdisc : d.disc = true) (hn : d.name ∈ config)
    (hsize : ∀ r, d.source = some r → (Spec.lines r.chunks.flatten).length ≤ 2 ^ 32) :
    ∃ r oi fs, d.source = some r ∧ s'.app.served d.name = some (oi, ramDict (Spec.lines r.chunks.flatten)) ∧
      indexJobFiles ρ G order splitDocs splitHeader d.name (tok d) (ramDict (Spec.lines r.chunks.flatten)) (w d.place).files = .ok fs ∧
      buildFS G d.name fs = .ok oi := by
  obtain ⟨-, h1⟩ := C83_success_partial hh hc hs h he
  obtain ⟨c, h2, h3⟩ := h1 _ hn
  obtain ⟨r, h4, -, h5⟩ := C75_success hr hp hrun w hd hw hdisc
  obtain ⟨fs, h6, h7⟩ := h5 (hsize r h4)
  rw [hfiles d hd hdisc, h7] at h2
  cases hb : buildFS G d.name fs with
  | error e => rw [hb] at h2; cases h2
  | ok oi =>
    rw [hb] at h2
    cases h2
    exact ⟨r, oi, fs, h4, h3, h6, hb⟩

end

/-- The hypotheses are met: a server that serves version 0, a command that writes version 1 and asks for a reload, while a second reload
runs at the same time. -/
example (msg : Err → Bytes) : ∃ s' : NotifyState Nat,
    ReflTransGen (Quiet ⟨false, true, true⟩ msg ["a"]) ⟨⟨versionFiles 1, fun _ => some 0, [.ended none]⟩, .signal⟩ s' ∧
    s'.cmd = .ended none ∧ s'.app.served "a" = some 1 := by
  let S : List (Reload Nat) → (String → Option Nat) → NotifyAt → NotifyState Nat := fun rs sv c => ⟨⟨versionFiles 1, sv, rs⟩, c⟩
  have q1 : ReflTransGen (Quiet ⟨false, true, true⟩ msg ["a"]) (S [.ended none] (fun _ => some 0) .signal)
      (S [.ended none] (fun _ => some 0) .request) := (ReflTransGen.refl).tail ⟨.signalled rfl, rfl⟩
  have q2 : ReflTransGen (Quiet ⟨false, true, true⟩ msg ["a"]) _ (S [.ended none, .next ["a"]] (fun _ => some 0) (.waiting 1)) :=
    q1.tail ⟨.post rfl rfl, rfl⟩
  have q3 : ReflTransGen (Quiet ⟨false, true, true⟩ msg ["a"]) _ (S [.ended none, .next ["a"], .next ["a"]] (fun _ => some 0) (.waiting 1)) :=
    q2.tail ⟨other_step (.start ["a"]), rfl⟩
  have q4 : ReflTransGen (Quiet ⟨false, true, true⟩ msg ["a"]) _ (S [.ended none, .built "a" 1 [], .next ["a"]] (fun _ => some 0) (.waiting 1)) :=
    q3.tail ⟨other_step (.build (i := 1) (n := "a") (todo := []) (c := 1) rfl rfl), rfl⟩
  have q5 : ReflTransGen (Quiet ⟨false, true, true⟩ msg ["a"]) _ (S [.ended none, .next [], .next ["a"]]
      (Function.update (fun _ => some 0) "a" (some 1)) (.waiting 1)) :=
    q4.tail ⟨other_step (.publish (i := 1) (n := "a") (todo := []) (c := 1) rfl), rfl⟩
  have q6 : ReflTransGen (Quiet ⟨false, true, true⟩ msg ["a"]) _ (S [.ended none, .ended none, .next ["a"]]
      (Function.update (fun _ => some 0) "a" (some 1)) (.waiting 1)) :=
    q5.tail ⟨other_step (.finish (i := 1) rfl), rfl⟩
  have q7 : ReflTransGen (Quiet ⟨false, true, true⟩ msg ["a"]) _ (S [.ended none, .ended none, .next ["a"]]
      (Function.update (fun _ => some 0) "a" (some 1)) (.ended none)) :=
    q6.tail ⟨.reply (i := 1) (err := none) rfl rfl, rfl⟩
  exact ⟨_, q7, rfl, rfl⟩

end Verif.Props
