import Verif.Model.Serve
import Verif.Proofs.Serve
import Verif.Proofs.ServeText
import Verif.Proofs.ServeLong
import Verif.Props.WirePredict
/-!
Property theorems C94: the servers as processes with many clients. What one client sends should not take the server away from the
others.

`Steps K client s s'` (Verif/Model/Serve.lean) — the process `K` gets from `s` to `s'` while clients send requests that `client`
admits; `s.up` — the process is running; a connection is `cut` when the process ended before it was answered.
-/
namespace Verif.Props
open Verif Spec Verif.WordSearch Verif.Wire Verif.Serve

/-! ### Any server -/

section
variable {W : Type} {K : Server W} {client : Method → Bytes → Prop}

/-- A process that has just been started. -/
def Fresh (w : W) : State W := ⟨true, w, []⟩

/-- **C94** As long as the process runs, every step concerns one connection at most; all others stay what they are. -/
theorem C94_others_unaffected {s s' : State W} (h : Step K client s s') (hup : s'.up = true) :
    ∃ i : Nat, ∀ j : Nat, j ≠ i → s'.conns[j]? = s.conns[j]? := by
  have hset : ∀ (i : Nat) (m : Method) (t : Bytes) (c : Conn W), ∃ k : Nat, ∀ j : Nat, j ≠ k → (s.put i m t c).conns[j]? = s.conns[j]? := by
    intro i m t c
    refine ⟨i, fun j hj => ?_⟩
    show (s.conns.set i (m, t, c))[j]? = _
    rw [List.getElem?_set_ne (Ne.symm hj)]
  cases h with
  | arrive =>
    refine ⟨s.conns.length, fun j hj => ?_⟩
    rcases lt_or_gt_of_ne hj with h | h
    · exact List.getElem?_append_left h
    · show (s.conns ++ _)[j]? = _
      rw [List.getElem?_eq_none (by simp; omega), List.getElem?_eq_none (by omega)]
  | begin => exact hset _ _ _ _
  | answer => exact hset _ _ _ _
  | abort => exact hset _ _ _ _
  | hang => exact hset _ _ _ _
  | crash => cases hup
  | publish => exact ⟨0, fun j _ => rfl⟩
  | race => cases hup

/-- **C94** Whatever has become of the other requests — answered, aborted, waiting for ever —, a running process can still answer the
next one. -/
theorem C94_still_answers {s : State W} (hup : s.up = true) {i : Nat} {m : Method} {t : Bytes}
    (hw : s.conns[i]? = some (m, t, .waiting)) {a : Answer} (ha : K.fate s.world m t (.answered a)) :
    ∃ s', Steps K client s s' ∧ s'.up = true ∧ s'.conns[i]? = some (m, t, .answered a) ∧
      ∀ j : Nat, j ≠ i → s'.conns[j]? = s.conns[j]? := by
  have hi : i < s.conns.length := (List.getElem?_eq_some_iff.1 hw).1
  have h1 : Step K client s (s.put i m t (.working s.world)) := .begin hup hw
  have hget : (s.put i m t (.working s.world)).conns[i]? = some (m, t, .working s.world) := by
    show (s.conns.set i _)[i]? = _
    rw [List.getElem?_set_self hi]
  have h2 : Step K client (s.put i m t (.working s.world)) ((s.put i m t (.working s.world)).put i m t (.answered a)) := .answer hup hget ha
  refine ⟨_, (Relation.ReflTransGen.single h1).tail h2, hup, ?_, fun j hj => ?_⟩
  · show ((s.conns.set i _).set i _)[i]? = _
    rw [List.getElem?_set_self (by simpa using hi)]
  · show ((s.conns.set i _).set i _)[j]? = _
    rw [List.getElem?_set_ne (Ne.symm hj), List.getElem?_set_ne (Ne.symm hj)]

/-- **C94** An answer that has been sent stays sent, and a connection that was closed without one stays closed, whatever happens
later, the end of the process included. -/
theorem C94_answers_last {s s' : State W} (h : Steps K client s s') {i : Nat} {m : Method} {t : Bytes} {c : Conn W}
    (hc : c = .aborted ∨ ∃ a, c = .answered a) (hi : s.conns[i]? = some (m, t, c)) : s'.conns[i]? = some (m, t, c) := by
  induction h with
  | refl => exact hi
  | @tail s1 s2 _ hst ih =>
    have hput : ∀ (j : Nat) (m' : Method) (t' : Bytes) (c' x : Conn W), s1.conns[j]? = some (m', t', c') →
        (¬ (c' = .aborted ∨ ∃ a, c' = .answered a)) → (s1.put j m' t' x).conns[i]? = some (m, t, c) := by
      intro j m' t' c' x hj hn
      have hne : j ≠ i := by
        rintro rfl
        rw [hj] at ih
        cases ih
        exact hn hc
      show (s1.conns.set j _)[i]? = _
      rw [List.getElem?_set_ne hne]
      exact ih
    have hdead : s1.dead.conns[i]? = some (m, t, c) := by
      show (s1.conns.map _)[i]? = _
      rw [List.getElem?_map, ih]
      rcases hc with rfl | ⟨a, rfl⟩ <;> rfl
    cases hst with
    | arrive =>
      show (s1.conns ++ _)[i]? = _
      rw [List.getElem?_append_left (List.getElem?_eq_some_iff.1 ih).1]
      exact ih
    | begin _ hj => exact hput _ _ _ _ _ hj (by simp)
    | answer _ hj => exact hput _ _ _ _ _ hj (by simp)
    | abort _ hj => exact hput _ _ _ _ _ hj (by simp)
    | hang _ hj => exact hput _ _ _ _ _ hj (by simp)
    | crash => exact hdead
    | publish => exact ih
    | race => exact hdead

/-- **C94** When the process has ended nothing happens any more, and nobody waits: every request was answered, or its connection was
closed, by itself or with the process. -/
theorem C94_after_the_end {w : W} {s : State W} (h : Steps K client (Fresh w) s) (hup : s.up = false) :
    (∀ s', ¬ Step K client s s') ∧
      ∀ m t c, (m, t, c) ∈ s.conns → c = .aborted ∨ c = .cut ∨ ∃ a, c = .answered a := by
  refine ⟨fun s' hst => ?_, ?_⟩
  · cases hst <;> simp_all
  rcases Relation.ReflTransGen.cases_tail h with rfl | ⟨s1, _, hst⟩
  · cases hup
  · have hdead : ∀ m t c, (m, t, c) ∈ s1.dead.conns → c = .aborted ∨ c = .cut ∨ ∃ a, c = .answered a := by
      intro m t c hc
      obtain ⟨⟨m', t', c'⟩, _, he⟩ := List.mem_map.1 hc
      cases he
      cases c' <;> simp [Conn.open]
    cases hst with
    | crash => exact hdead
    | race => exact hdead
    | arrive h1 => exact absurd hup (by simp [h1])
    | publish h1 => exact absurd hup (by simp [h1])
    | begin h1 => exact absurd (show s1.up = false from hup) (by simp [h1])
    | answer h1 => exact absurd (show s1.up = false from hup) (by simp [h1])
    | abort h1 => exact absurd (show s1.up = false from hup) (by simp [h1])
    | hang h1 => exact absurd (show s1.up = false from hup) (by simp [h1])

/-- What a request can be at while every published thing satisfies `I`. -/
def ConnOk (K : Server W) (I : W → Prop) (m : Method) (t : Bytes) : Conn W → Prop
  | .working w => I w
  | .answered a => ∃ w, I w ∧ K.fate w m t (.answered a)
  | .cut => False
  | _ => True

/-- No request kills the process if none of the clients' requests has the fate to. -/
theorem server_survives {I : W → Prop} (hI : ∀ w w', I w → K.change w w' → I w')
    (hfate : ∀ w m t, I w → client m t → ¬ K.fate w m t .fatal)
    (hrace : (∀ m t, client m t → ¬ K.iterates m t) ∨ ∀ w w', ¬ K.change w w') {w : W} (hw : I w) {s : State W}
    (h : Steps K client (Fresh w) s) : s.up = true ∧ I s.world ∧ ∀ c ∈ s.conns, client c.1 c.2.1 ∧ ConnOk K I c.1 c.2.1 c.2.2 := by
  induction h with
  | refl => exact ⟨rfl, hw, by simp [Fresh]⟩
  | @tail s s' _ hst ih =>
    obtain ⟨i1, i2, i3⟩ := ih
    have hput : ∀ (i : Nat) (m : Method) (t : Bytes) (c c' : Conn W), s.conns[i]? = some (m, t, c) → ConnOk K I m t c' →
        (s.put i m t c').up = true ∧ I (s.put i m t c').world ∧
          ∀ c ∈ (s.put i m t c').conns, client c.1 c.2.1 ∧ ConnOk K I c.1 c.2.1 c.2.2 := by
      intro i m t c c' hi hc
      refine ⟨i1, i2, fun x hx => ?_⟩
      rcases List.mem_or_eq_of_mem_set hx with hx | rfl
      · exact i3 x hx
      · exact ⟨(i3 _ (List.mem_of_getElem? hi)).1, hc⟩
    have hwork : ∀ (i : Nat) (m : Method) (t : Bytes) (w : W), s.conns[i]? = some (m, t, .working w) → client m t ∧ I w :=
      fun i m t w hi => i3 _ (List.mem_of_getElem? hi)
    cases hst with
    | arrive _ hc =>
      refine ⟨i1, i2, fun x hx => ?_⟩
      rcases List.mem_append.1 hx with hx | hx
      · exact i3 x hx
      · rw [List.mem_singleton] at hx
        subst hx
        exact ⟨hc, trivial⟩
    | begin _ hi => exact hput _ _ _ _ _ hi i2
    | answer _ hi ha => exact hput _ _ _ _ _ hi ⟨_, (hwork _ _ _ _ hi).2, ha⟩
    | abort _ hi => exact hput _ _ _ _ _ hi trivial
    | hang _ hi => exact hput _ _ _ _ _ hi trivial
    | crash _ hi hf =>
      obtain ⟨g1, g2⟩ := hwork _ _ _ _ hi
      exact absurd hf (hfate _ _ _ g2 g1)
    | publish _ hc => exact ⟨i1, hI _ _ i2 hc, i3⟩
    | race _ hi hit hc =>
      rcases hrace with hr | hr
      · exact absurd hit (hr _ _ (hwork _ _ _ _ hi).1)
      · exact absurd hc (hr _ _)

/-- **C94** Every answer is an answer to its own request, for something the server had published: requests are not mixed up. -/
theorem C94_own_answers {w : W} {s : State W} (h : Steps K client (Fresh w) s) {m : Method} {t : Bytes} {a : Answer}
    (hc : (m, t, Conn.answered a) ∈ s.conns) : ∃ w', Relation.ReflTransGen K.change w w' ∧ K.fate w' m t (.answered a) := by
  have : Relation.ReflTransGen K.change w s.world ∧ ∀ c ∈ s.conns,
      (∀ v, c.2.2 = .working v → Relation.ReflTransGen K.change w v) ∧
      ∀ a, c.2.2 = .answered a → ∃ w', Relation.ReflTransGen K.change w w' ∧ K.fate w' c.1 c.2.1 (.answered a) := by
    clear hc
    induction h with
    | refl => exact ⟨.refl, by simp [Fresh]⟩
    | @tail s s' _ hst ih =>
      obtain ⟨i2, i3⟩ := ih
      have hput : ∀ (i : Nat) (m : Method) (t : Bytes) (c' : Conn W),
          (∀ v, c' = .working v → Relation.ReflTransGen K.change w v) →
          (∀ a, c' = .answered a → ∃ w', Relation.ReflTransGen K.change w w' ∧ K.fate w' m t (.answered a)) →
          ∀ c ∈ (s.put i m t c').conns, (∀ v, c.2.2 = .working v → Relation.ReflTransGen K.change w v) ∧
            ∀ a, c.2.2 = .answered a → ∃ w', Relation.ReflTransGen K.change w w' ∧ K.fate w' c.1 c.2.1 (.answered a) := by
        intro i m t c' h1 h2 x hx
        rcases List.mem_or_eq_of_mem_set hx with hx | rfl
        · exact i3 x hx
        · exact ⟨h1, h2⟩
      have hdead : ∀ c ∈ s.dead.conns, (∀ v, c.2.2 = .working v → Relation.ReflTransGen K.change w v) ∧
            ∀ a, c.2.2 = .answered a → ∃ w', Relation.ReflTransGen K.change w w' ∧ K.fate w' c.1 c.2.1 (.answered a) := by
        intro x hx
        obtain ⟨⟨m, t, c⟩, hy, rfl⟩ := List.mem_map.1 hx
        have := i3 _ hy
        cases c <;> simp only [Conn.open] at this ⊢
        · exact ⟨fun v h => by simp at h, fun v h => by simp at h⟩
        · exact ⟨fun v h => by simp at h, fun v h => by simp at h⟩
        · simpa using this
        · exact ⟨fun v h => by simp at h, fun v h => by simp at h⟩
        · exact ⟨fun v h => by simp at h, fun v h => by simp at h⟩
        · exact ⟨fun v h => by simp at h, fun v h => by simp at h⟩
      cases hst with
      | arrive _ hc =>
        refine ⟨i2, fun x hx => ?_⟩
        rcases List.mem_append.1 hx with hx | hx
        · exact i3 x hx
        · rw [List.mem_singleton] at hx
          subst hx
          exact ⟨(fun v h => nomatch h), (fun v h => nomatch h)⟩
      | begin _ hi => exact ⟨i2, hput _ _ _ _ (fun v h => by cases h; exact i2) fun v h => nomatch h⟩
      | answer _ hi ha =>
        refine ⟨i2, hput _ _ _ _ (fun v h => nomatch h) fun v h => ?_⟩
        cases h
        exact ⟨_, (i3 _ (List.mem_of_getElem? hi)).1 _ rfl, ha⟩
      | abort _ hi => exact ⟨i2, hput _ _ _ _ (fun v h => nomatch h) fun v h => nomatch h⟩
      | hang _ hi => exact ⟨i2, hput _ _ _ _ (fun v h => nomatch h) fun v h => nomatch h⟩
      | crash => exact ⟨i2, hdead⟩
      | publish _ hc => exact ⟨i2.tail hc, i3⟩
      | race => exact ⟨i2, hdead⟩
  exact (this.2 _ hc).2 a rfl

/-- A request arrives and is begun; the others stay what they are. -/
theorem begun {s : State W} (hup : s.up = true) {m : Method} {t : Bytes} (hc : client m t) :
    ∃ s2, Steps K client s s2 ∧ s2.conns[s.conns.length]? = some (m, t, .working s.world) ∧ s2.up = true ∧ s2.world = s.world ∧
      ∀ (i : Nat) (c : Method × Bytes × Conn W), s.conns[i]? = some c → s2.conns[i]? = some c := by
  have h1 : Step K client s { s with conns := s.conns ++ [(m, t, .waiting)] } := .arrive hup hc
  obtain ⟨s1, hs1⟩ : ∃ s1 : State W, s1 = { s with conns := s.conns ++ [(m, t, .waiting)] } := ⟨_, rfl⟩
  have e1 : s1.conns[s.conns.length]? = some (m, t, .waiting) := by rw [hs1]; simp
  have e2 : s1.up = true := by rw [hs1]; exact hup
  have e3 : s1.world = s.world := by rw [hs1]
  rw [← hs1] at h1
  have h2 : Step K client s1 (s1.put s.conns.length m t (.working s1.world)) := .begin e2 e1
  refine ⟨_, (Relation.ReflTransGen.single h1).tail h2, ?_, e2, e3, ?_⟩
  · rw [e3]
    show (s1.conns.set _ _)[_]? = _
    rw [List.getElem?_set_self (List.getElem?_eq_some_iff.1 e1).1]
  · intro i c hi
    have hlt := (List.getElem?_eq_some_iff.1 hi).1
    show (s1.conns.set _ _)[i]? = _
    rw [List.getElem?_set_ne (by omega), hs1]
    exact (List.getElem?_append_left hlt).trans hi

/-- A request that has the fate to kill the process can do it at any moment, whoever is waiting. -/
theorem server_dies {s : State W} (hup : s.up = true) {m : Method} {t : Bytes} (hc : client m t) (hf : K.fate s.world m t .fatal) :
    ∃ s', Steps K client s s' ∧ s'.up = false ∧
      ∀ (i : Nat) (m' : Method) (t' : Bytes) (c : Conn W), s.conns[i]? = some (m', t', c) → c.open = true →
        s'.conns[i]? = some (m', t', .cut) := by
  obtain ⟨s2, h2, e4, e5, _, e7⟩ := begun (K := K) (client := client) hup hc
  refine ⟨s2.dead, h2.tail (.crash e5 e4 hf), rfl, ?_⟩
  intro i m' t' c hi ho
  show (s2.conns.map _)[i]? = _
  rw [List.getElem?_map, e7 i _ hi]
  simp [ho]

/-- So can a request that iterates the maps while a reload publishes. -/
theorem server_race {s : State W} (hup : s.up = true) {m : Method} {t : Bytes} (hc : client m t) (hit : K.iterates m t) {w' : W}
    (hr : K.change s.world w') :
    ∃ s', Steps K client s s' ∧ s'.up = false ∧
      ∀ (i : Nat) (m' : Method) (t' : Bytes) (c : Conn W), s.conns[i]? = some (m', t', c) → c.open = true →
        s'.conns[i]? = some (m', t', .cut) := by
  obtain ⟨s2, h2, e4, e5, e6, e7⟩ := begun (K := K) (client := client) hup hc
  refine ⟨s2.dead, h2.tail (.race e5 e4 hit (by rw [e6]; exact hr)), rfl, ?_⟩
  intro i m' t' c hi ho
  show (s2.conns.map _)[i]? = _
  rw [List.getElem?_map, e7 i _ hi]
  simp [ho]

end

/-! ### The suggest server -/

/-- Everything that is published is an opened index of some documents with the tokenizers of some description: n-grams of 1 to 8
characters, wrappers of not more than `wraps` bytes together. -/
def WellBuilt (ρ : Roaring) (G : Gob) (wraps : Nat) (w : World) : Prop :=
  ∀ dict p, w.published dict = some p → ∃ (lower : Nat → Nat) (sortA : List Alphabet → List Alphabet) (d : TokenConf) (docs : List Doc),
    1 ≤ d.nGramSize ∧ d.nGramSize ≤ 8 ∧ d.wrapStart.length + d.wrapEnd.length ≤ wraps ∧
    p.suggestTok = suggestTokenizer lower sortA d ∧ p.completeTok = autocompleteTokenizer lower sortA d ∧
    GoodDocs docs ∧ FirstNonempty docs ∧ IndexOf ρ G docs p.index

section
variable {ρ : Roaring} (L : ρ.Lawful) {G : Gob} (LG : G.Lawful) {sort : List (PList ρ) → List (PList ρ)} (hs : ∀ r, (sort r).Perm r)
  {F : FloatOps ℚ} {pf : Bytes → Except Err F64} {num : ℚ → Bytes}

theorem config_topK {form : String → Bytes} {query : String} {conf : SearchConfig MetricName}
    (h3 : buildSearchConfig pf form query = .ok conf) : 1 ≤ conf.topK := by
  unfold buildSearchConfig at h3
  split at h3
  · cases h3
  split at h3
  · cases h3
  split at h3
  · cases h3
  unfold newSearchConfig at h3
  split at h3
  · cases h3
  · split at h3
    · cases h3
    · cases h3
      dsimp only
      omega

/-- The list of the dictionaries is read with GET. -/
theorem list_get {m : Method} {path : Bytes} (h2 : route m path = .dictList) : m = .get := by
  unfold route at h2
  split at h2
  · cases h2
  unfold matchRoutes at h2
  dsimp only at h2
  repeat' split at h2
  all_goals first
    | (cases h2; done)
    | (rename_i hne _; simpa using hne)

include L LG hs in
/-- A request whose target is not too long never makes another goroutine than its own panic. -/
theorem short_not_fatal {wraps : Nat} {w : World} (hw : WellBuilt ρ G wraps w) {m : Method} {t : Bytes} (ht : t.length + wraps ≤ 65535) :
    ¬ RequestFate F ρ sort pf num w m t .fatal := by
  intro h
  generalize hf : Fate.fatal = fate at h
  cases h with
  | answered => cases hf
  | reindexed _ _ h =>
    subst hf
    simp at h
  | suggestToken | completeToken => cases hf
  | @suggest path raw dict query conf x p q _ h1 h2 h3 h4 h5 h6 h7 =>
    subst hf
    obtain ⟨lower, sortA, d, docs, a1, a2, a3, a4, a5, a6, a7, a8⟩ := hw dict p h5
    obtain ⟨toks, b1, b2⟩ := suggestTokenizer_length (lower := lower) (sort := sortA) a1 a2 query
    rw [a4, b1] at h6
    cases h6
    have hlen : query.length ≤ t.length := (route_length (.inl h2)).trans (parseTarget_length h1)
    have hK := config_topK h3
    cases h7 with
    | worker _ hr hp =>
      exact hp (suggest_noPanic L LG a6 a7 a8 hs (.of_short (by simp; omega)) F _ _ _ hK hr)
  | suggestEndless => cases hf
  | @suggestNaN path raw dict query conf p q _ h1 h2 h3 h4 h5 h6 h7 =>
    subst hf
    obtain ⟨lower, sortA, d, docs, a1, a2, a3, a4, a5, a6, a7, a8⟩ := hw dict p h5
    obtain ⟨toks, b1, b2⟩ := suggestTokenizer_length (lower := lower) (sort := sortA) a1 a2 query
    rw [a4, b1] at h6
    cases h6
    have hlen : query.length ≤ t.length := (route_length (.inl h2)).trans (parseTarget_length h1)
    cases h7 with
    | worker _ hr hp =>
      exact hp (suggest_noPanic L LG a6 a7 a8 hs (.of_short (by simp; omega)) (nanOps F) _ _ _ (config_topK h3) hr)
  | @complete path raw dict query limit p q _ h1 h2 h3 h5 h6 h7 =>
    subst hf
    obtain ⟨lower, sortA, d, docs, a1, a2, a3, a4, a5, a6, a7, a8⟩ := hw dict p h5
    obtain ⟨toks, b1, b2⟩ := autocompleteTokenizer_length (lower := lower) (sort := sortA) a1 a2 query
    rw [a5, b1] at h6
    cases h6
    have hlen : query.length ≤ t.length := (route_length (.inr h2)).trans (parseTarget_length h1)
    have h0 : 0 ≤ limit := by
      rcases C55_topK.1 h3 with ⟨_, h⟩ | ⟨_, h, _⟩ <;> omega
    cases h7 with
    | worker hr hp =>
      exact hp (autocomplete_noPanic L LG a6 a7 a8 hs (.of_short (by simp; omega)) _ h0 hr)

include L LG hs in
/-- **C94, partial** The suggest server, with any number of clients and requests of any kind and in any order, never ends and leaves no
client without an answer because of another client, if no request target (and wrappers) is longer than 65535 bytes, and — as long as
the service reloads — nobody asks for the list of the dictionaries. Without the first condition: `C94_long_query_kills`; without the
second: `C94_list_kills`. -/
theorem C94_suggest_survives_partial {wraps : Nat} {reload : World → World → Prop} (hreload : ∀ w w', reload w w' → WellBuilt ρ G wraps w')
    {client : Method → Bytes → Prop} (hshort : ∀ m t, client m t → t.length + wraps ≤ 65535)
    (hlist : (∀ t, client .get t → ∀ path raw, parseTarget t = .ok (path, raw) → route .get path ≠ .dictList) ∨ ∀ w w', ¬ reload w w')
    {w : World} (hw : WellBuilt ρ G wraps w) {s : State World}
    (h : Steps (suggestServer F ρ sort pf num reload) client (Fresh w) s) :
    s.up = true ∧ ∀ m t, (m, t, Conn.cut) ∉ s.conns := by
  have key := server_survives (K := suggestServer F ρ sort pf num reload) (client := client) (I := WellBuilt ρ G wraps)
    (fun w w' _ hc => hreload w w' hc) (fun w m t hI hc => short_not_fatal L LG hs hI (hshort m t hc)) (by
      rcases hlist with hl | hl
      · left
        rintro m t hc ⟨path, raw, h1, h2⟩
        have hm := list_get h2
        subst hm
        exact hl t hc path raw h1 h2
      · exact .inr hl) hw h
  exact ⟨key.1, fun m t hc => (key.2.2 _ hc).2⟩

/-- **C94** is false while the service reloads: if a client asks for the list of the dictionaries ("GET /dict/list/") while a reload
publishes an index, the process may end, and all requests that are not answered yet are cut. -/
theorem C94_list_kills {reload : World → World → Prop} {client : Method → Bytes → Prop} (hc : client .get (utf8 "/dict/list/".toList))
    {s : State World} (hup : s.up = true) {w' : World} (hr : reload s.world w') :
    ∃ s', Steps (suggestServer F ρ sort pf num reload) client s s' ∧ s'.up = false ∧
      ∀ (i : Nat) (m : Method) (t : Bytes) (c : Conn World), s.conns[i]? = some (m, t, c) → c.open = true →
        s'.conns[i]? = some (m, t, .cut) := by
  have h1 : parseTarget (utf8 "/dict/list/".toList) = .ok (utf8 "/dict/list/".toList, []) := by
    have : (match parseTarget (utf8 "/dict/list/".toList) with | .ok x => some x | .error _ => none) =
        some (utf8 "/dict/list/".toList, []) := by decide +kernel
    split at this
    · rename_i x hx
      rw [hx]
      exact congrArg Except.ok (Option.some.inj this)
    · cases this
  have h2 : route .get (utf8 "/dict/list/".toList) = .dictList := by decide +kernel
  have hit : (suggestServer F ρ sort pf num reload).iterates .get (utf8 "/dict/list/".toList) := ⟨_, _, h1, h2⟩
  exact server_race hup hc hit hr

end

/-! ### The spell checker server -/

section
variable {S : Type} [LinearOrder S] [Inhabited S] {sc : SpellChecker} {docs : List Doc} {files : List (List (List Nat × Nat))} {id : Bytes → Nat}
  {start : Nat} {F : FloatOps S} {real : ℚ → S} {val : LMScore → S} {pf : Bytes → Except Err F64}


omit val in
theorem args_topK {form : String → Bytes} (h0 : ∀ x, predictArgs pf form ≠ .ok (0, x)) {topK : Int} {x : F64}
    (h3 : predictArgs pf form = .ok (topK, x)) : 1 ≤ topK := by
  have h0 : topK ≠ 0 := fun e => h0 _ (e ▸ h3)
  have : 0 ≤ topK := by
    unfold predictArgs at h3
    split at h3
    · cases h3
    · rename_i k hk
      split at h3
      · cases h3
      · cases h3
        rcases C55_topK.1 hk with ⟨_, h⟩ | ⟨_, h, _⟩ <;> omega
  omega

omit val in
/-- `Predict` with a positive limit for a query whose last word is not too long makes no goroutine of a search panic. -/
theorem predict_not_fatal {S : Type} [LinearOrder S] [Inhabited S] {F : FloatOps S} {val : LMScore → S} (L : sc.ρ.Lawful) {G : Gob}
    (LG : G.Lawful) (hd : GoodDocs docs) (hf : FirstNonempty docs) (hoi : IndexOf sc.ρ G docs sc.index)
    (hs : ∀ r, (sc.sort r).Perm r) (hm : SpellModel sc files id start) {query : Bytes} {topK : Int} (hK : 1 ≤ topK) {α : S}
    (g2 : ∀ w, LastWord sc query w → (sc.prefixGrams w).length ≤ 65535 ∧ (sc.grams w).length ≤ 65535) :
    ¬ PredictFails F val sc query topK α .fatal := by
  intro h4
  have hscore : ∀ seq next, spellScorer sc seq = .ok next → ∃ score : Nat → S, ∀ d ∈ docs, lmScore val next d.id = .ok (score d.id) := by
    intro seq next hn
    obtain ⟨next', k1, k2, k3, k4⟩ := spell_scores (S := S) hm seq
    rw [hn] at k1; cases k1
    by_cases hs : seq = []
    · exact ⟨fun _ => val .unknown, fun d _ => by rw [k2 hs]; rfl⟩
    · by_cases hl : seq.length = files.length
      · exact ⟨fun i => val (followScore files (seq.map id).dropLast i), fun d hx => k4 hl d.id (hd.id32 d hx) val⟩
      · exact ⟨fun i => val (followScore files (recentWords files.length start (seq.map id)) i), fun d hx => k3 hs hl d.id (hd.id32 d hx) val⟩
  generalize hft : Fate.fatal = fate at h4
  cases h4 with
  | auto ht hn hfail =>
    subst hft
    obtain ⟨score, hsc⟩ := hscore _ _ hn
    cases hfail with
    | worker hr hp => exact hp (lm_noPanic L LG hd hf hoi hs (.of_short (g2 _ ⟨_, ht⟩).1) _ score hsc _ hK hr)
  | fuzzy ht hn _ _ hfail =>
    subst hft
    cases hfail with
    | worker _ hr hp => exact hp (suggest_noPanic L LG hd hf hoi hs (.of_short (g2 _ ⟨_, ht⟩).2) F _ _ _ hK hr)
  | finish => cases hft

/-- A request without `topK=0` for a query whose last word is not too long never makes another goroutine than its own panic. -/
theorem spell_not_fatal (L : sc.ρ.Lawful) {G : Gob} (LG : G.Lawful) (hd : GoodDocs docs) (hf : FirstNonempty docs)
    (hoi : IndexOf sc.ρ G docs sc.index) (hs : ∀ r, (sc.sort r).Perm r) (hm : SpellModel sc files id start) {m : Method} {t : Bytes}
    (hclient : ∀ path raw query, parseTarget t = .ok (path, raw) → routeSpell m path = .predict query →
      (∀ x, predictArgs pf (formValue raw) ≠ .ok (0, x)) ∧
      ∀ w, LastWord sc query w → (sc.prefixGrams w).length ≤ 65535 ∧ (sc.grams w).length ≤ 65535) :
    ¬ SpellFate F real val sc pf m t .fatal := by
  intro h
  generalize hf' : Fate.fatal = fate at h
  cases h with
  | answered => cases hf'
  | @predict path raw query topK x _ h1 h2 h3 h4 =>
    subst hf'
    obtain ⟨g1, g2⟩ := hclient path raw query h1 h2
    exact predict_not_fatal L LG hd hf hoi hs hm (args_topK g1 h3) g2 h4
  | @predictNaN path raw query topK _ h1 h2 h3 h4 =>
    subst hf'
    obtain ⟨g1, g2⟩ := hclient path raw query h1 h2
    cases h4 with
    | auto a b c =>
      exact predict_not_fatal (F := nanOps F) (α := ⊤) L LG hd hf hoi hs hm (args_topK g1 h3) g2 (.auto a b c)
    | fuzzy a b c d e =>
      exact predict_not_fatal (F := nanOps F) (α := ⊤) L LG hd hf hoi hs hm (args_topK g1 h3) g2 (.fuzzy a b c d e)

/-- **C94, partial** The spell checker server never ends and leaves no client without an answer because of another client, if nobody
asks for `topK=0`, and the last word of no query has more than 65535 n-grams. Without the first condition: `C94_topK_zero_kills`. -/
theorem C94_predict_survives_partial (L : sc.ρ.Lawful) {G : Gob} (LG : G.Lawful) (hd : GoodDocs docs) (hf : FirstNonempty docs)
    (hoi : IndexOf sc.ρ G docs sc.index) (hs : ∀ r, (sc.sort r).Perm r) (hm : SpellModel sc files id start)
    {client : Method → Bytes → Prop}
    (hclient : ∀ m t, client m t → ∀ path raw query, parseTarget t = .ok (path, raw) → routeSpell m path = .predict query →
      (∀ x, predictArgs pf (formValue raw) ≠ .ok (0, x)) ∧
      ∀ w, LastWord sc query w → (sc.prefixGrams w).length ≤ 65535 ∧ (sc.grams w).length ≤ 65535)
    {s : State Unit} (h : Steps (spellServer F real val sc pf) client (Fresh ()) s) :
    s.up = true ∧ ∀ m t, (m, t, Conn.cut) ∉ s.conns := by
  have key := server_survives (K := spellServer F real val sc pf) (client := client) (I := fun _ => True)
    (fun _ _ _ _ => trivial) (fun _ m t _ hc => spell_not_fatal L LG hd hf hoi hs hm (hclient m t hc))
    (.inl fun _ _ _ h => h) trivial h
  exact ⟨key.1, fun m t hc => (key.2.2 _ hc).2⟩

end

section
variable {sc : SpellChecker} {docs : List Doc} {files : List (List (List Nat × Nat))} {id : Bytes → Nat} {start : Nat}
  {F : FloatOps ℝ} {real : ℚ → ℝ} {val : LMScore → ℝ} {pf : Bytes → Except Err F64}

/-- **C94** is false for the spell checker server: one request "GET /predict/query/?topK=0", for a query whose last word is the
beginning of some word (all its n-grams are in a word of the dictionary), may end the process at any moment, and all requests of other
clients that are not answered yet are cut. -/
theorem C94_topK_zero_kills {query query' raw : Bytes} {kvs : List (Bytes × Bytes)} (hi : SpellIndex sc docs query)
    (hm : SpellModel sc files id start) (hq : PctEncoded false query query') (hsq : PathSegment query) (hform : FormEncoded kvs raw)
    (hk : IsDecimal (fieldValue kvs "topK".toUTF8.toList) 0) (hsim : fieldValue kvs "similarity".toUTF8.toList = [])
    {seq : List Bytes} {word : Bytes} (ht : sc.tokenize query = seq ++ [word]) (hw : sc.prefixGrams word ≠ [])
    (hcont : containing docs (sc.prefixGrams word) ≠ []) {client : Method → Bytes → Prop} (hc : client .get (predictTarget query' raw))
    {s : State Unit} (hup : s.up = true) :
    ∃ s', Steps (spellServer F real val sc pf) client s s' ∧ s'.up = false ∧
      ∀ (i : Nat) (m : Method) (t : Bytes) (c : Conn Unit), s.conns[i]? = some (m, t, c) → c.open = true →
        s'.conns[i]? = some (m, t, .cut) := by
  refine server_dies hup hc ?_
  show SpellFate F real val sc pf .get (predictTarget query' raw) .fatal
  obtain ⟨path, h1, h2⟩ := C90_request hq hsq (form_plain hform)
  refine .predict h1 h2 (topK := 0) (x := 1 / 2) ?_ ?_
  · unfold predictArgs
    rw [C88_form hform, C88_form hform, C55_topK.2 (.inr ⟨hk, le_refl _, by norm_num⟩), hsim, C55_similarity.2 (.inl ⟨rfl, rfl⟩)]
  · obtain ⟨hp, _⟩ := C65_zero_panics (F := F) (val := val) (α := real (1 / 2)) hi hm ht hw hcont
    cases hp with
    | auto ht' hn hp =>
      refine .auto ht' hn ?_
      rcases hp with ⟨e, he⟩ | ⟨s, hr, hs⟩
      · unfold AConf.start TopKQueue.new at he
        cases he
      · exact .worker hr hs
    | fuzzy _ _ _ hlt => omega

end

/-! ### A long query -/

section
variable {ρ : Roaring} (L : ρ.Lawful) {G : Gob} (LG : G.Lawful)
  {lower : Nat → Nat} {sort : List Alphabet → List Alphabet} {d : TokenConf} {c : WordConf} (hdc : Describes lower sort d c)
  {words : List (List Char)} (hwords : words.length < 2 ^ 32) (hfaith : ∀ w ∈ words, c.Faithful (c.wordText w))
  (hfirst : ∀ w, words.head? = some w → c.grams (c.wordText w) ≠ [])
  (hn : ∀ w ∈ words, (c.grams (c.wordText w)).length ≤ 32767)
  {oi : OpenIndex} (hoi : WordIndex ρ G lower sort d words oi)
  {msort : List (PList ρ) → List (PList ρ)} (hs : ∀ r, (msort r).Perm r) {query : List Char} {dict : Bytes}
  {dict' query' raw : Bytes} {kvs : List (Bytes × Bytes)} (hd : PctEncoded false dict dict') (hsd : PathSegment dict)
  (hq : PctEncoded false (utf8 query) query') (hsq : PathSegment (utf8 query)) (hform : FormEncoded kvs raw)
  {pf : Bytes → Except Err F64} {num : ℚ → Bytes} {oob : Int}

include L LG hdc hwords hfaith hfirst hn hoi hs hd hsd hq hsq hform in
/-- **C94** is false for the suggest server and long queries: let `w` be a word with the most n-grams, and `g` one of its n-grams. If more
than 65535 different n-grams `ms` of the query become `g` when characters outside the alphabet are replaced by the pad, then one request
"GET /suggest/<dictionary>/<query>/?metric=Overlap" may end the process at any moment, and all requests of other clients that are not
answered yet are cut. -/
theorem C94_long_query_kills {w : List Char} (hw : w ∈ words)
    (hmax : ∀ v ∈ words, (c.grams (c.wordText v)).length ≤ (c.grams (c.wordText w)).length) {g : List Char}
    (hg : g ∈ c.grams (c.wordText w)) {ms : List (List Char)} (hnd : ms.Nodup) (hmany : 65535 < ms.length)
    (hms : ∀ m ∈ ms, m ∈ Spec.windows c.n (c.wordText query) ∧ c.normal m = g) (hlen : (c.wordText query).length < 2 ^ 31)
    (hm : fieldValue kvs "metric".toUTF8.toList = utf8 "Overlap".toList) (hk : fieldValue kvs "topK".toUTF8.toList = [])
    (hsim : fieldValue kvs "similarity".toUTF8.toList = []) {reload : World → World → Prop} {client : Method → Bytes → Prop}
    (hc : client .get (searchTarget "suggest" dict' query' raw)) {s : State World} (hup : s.up = true)
    (hpub : s.world.published dict =
      some ⟨oi, ramDict (words.map utf8), suggestTokenizer lower sort d, autocompleteTokenizer lower sort d⟩) :
    ∃ s', Steps (suggestServer (f64Ops oob) ρ msort pf num reload) client s s' ∧ s'.up = false ∧
      ∀ (i : Nat) (m : Method) (t : Bytes) (c : Conn World), s.conns[i]? = some (m, t, c) → c.open = true →
        s'.conns[i]? = some (m, t, .cut) := by
  refine server_dies hup hc ?_
  show RequestFate (f64Ops oob) ρ msort pf num s.world .get (searchTarget "suggest" dict' query' raw) .fatal
  obtain ⟨⟨path, h1, h2⟩, _⟩ := C88_request hd hsd hq hsq (form_plain hform)
  have hconf := handler_config (pf := pf) hform (K := 5) (.inl ⟨hk, rfl⟩) (α := 1 / 2) (.inl ⟨hsim, rfl⟩) (by norm_num) (by norm_num)
    (m := .overlap) (by rw [hm]; decide +kernel) (goString (utf8 query))
  have hwin : (Spec.windows c.n (c.wordText query)).length = (c.wordText query).length - c.n + 1 := by simp [Spec.windows]
  have hsub : ms.length ≤ (Spec.windows c.n (c.wordText query)).eraseDups.length :=
    (hnd.subperm fun m h => List.mem_eraseDups.2 (hms m h).1).length_le
  have hle := eraseDups_length (Spec.windows c.n (c.wordText query))
  have hcn := hdc.pos
  have htok := suggestTokens_any hdc (w := query) (by omega)
  obtain ⟨k, hkw⟩ := List.mem_iff_getElem?.1 hw
  have hdm : wordDoc c k w ∈ wordDocs c words := mem_wordDocs.2 ⟨k, w, hkw, rfl⟩
  have hgood := wordDocs_good (c := c) hwords fun v hv => by have := hn v hv; omega
  have hcard : (wordDoc c k w).terms.length = (c.grams (c.wordText w)).length := by simp [wordDoc]
  have hpos : 1 ≤ (wordDoc c k w).terms.length := by rw [hcard]; exact List.length_pos_of_mem hg
  have hn' := hn w hw
  obtain ⟨q, hqdef⟩ : ∃ q, q = ((Spec.windows c.n (c.wordText query)).eraseDups.map fun x => utf8 (c.normal x)).map goString := ⟨_, rfl⟩
  have hqlen : q.length = (Spec.windows c.n (c.wordText query)).eraseDups.length := by rw [hqdef]; simp
  have hov : 0xFFFF < shared q (wordDoc c k w) := by
    have := many_shared (c := c) (x := wordDoc c k w) hnd hms (List.mem_map.2 ⟨g, hg, rfl⟩)
    rw [← hqdef] at this
    omega
  have hthr := overlap_thr (oob := oob) (α := 1 / 2) (by norm_num) (by norm_num) (a := q.length) (b := (wordDoc c k w).terms.length)
    (by omega) hpos (by omega)
  obtain ⟨st, hr, hp⟩ := suggest_overflow L LG hgood (wordDocs_first hfirst) (wordIndex_indexOf hdc hfaith hoi) hs (f64Ops oob)
    (overlapMetric (f64Ops oob)) (1 / 2) 5 (by decide) hdm
    (by
      intro x hx
      obtain ⟨j, v, hj, rfl⟩ := mem_wordDocs.1 hx
      rw [hcard]
      simpa [wordDoc] using hmax v (List.mem_of_getElem? hj)) hov (by omega)
    (by show (1 : Int) ≤ _; exact_mod_cast hpos) (by show _ ≤ (32767 : Int); omega) hthr.1 hthr.2 (by omega)
  refine .suggest h1 h2 hconf rfl hpub htok ?_
  rw [← hqdef]
  refine .worker ?_ hr hp
  show q.length ≠ 0
  omega

end

end Verif.Props
