import Verif.Model.Memory
import Verif.Props.Serve
/-!
The servers on a machine with finite memory: property theorems for C94.

`suggestServerOn M …`, `spellServerOn M …` (Verif/Model/Memory.lean) — the servers of C94 on a machine on which a queue of more than
`M.maxAlloc` bytes cannot be made (a panic), and one of more than `M.available` bytes ends the process.
-/
namespace Verif.Props
open Verif Spec Verif.WordSearch Verif.Wire Verif.Serve Verif.Memory

section
variable {W : Type} {K : Server W} {M : Machine} {needs : W → Method → Bytes → Int → Prop}

/-- A request whose queues fit or are too large to be made does not end the process if it does not without limits. -/
theorem limited_not_fatal {w : W} {m : Method} {t : Bytes} (h : ¬ K.fate w m t .fatal)
    (hk : ∀ k, needs w m t k → queueSize k ≤ M.available ∨ M.maxAlloc < queueSize k) : ¬ (onMachine M needs K).fate w m t .fatal := by
  rintro (⟨k, _, _, e⟩ | ⟨k, h1, h2, h3, _⟩ | ⟨_, h'⟩)
  · cases e
  · rcases hk k h1 with h | h <;> omega
  · exact h h'

/-- What becomes of a request that needs one too large queue. -/
theorem limited_fatal_iff {w : W} {m : Method} {t : Bytes} {k : Int} (hn : ∀ k', needs w m t k' ↔ k' = k)
    (h1 : M.available < queueSize k) (h2 : queueSize k ≤ M.maxAlloc) (f : Fate) : (onMachine M needs K).fate w m t f ↔ f = .fatal := by
  constructor
  · rintro (⟨k', h, h', _⟩ | ⟨_, _, _, _, e⟩ | ⟨h, _⟩)
    · cases (hn k').1 h
      omega
    · exact e
    · have := (h k ((hn k).2 rfl)).1
      omega
  · exact fun e => .inr (.inl ⟨k, (hn k).2 rfl, h1, h2, e⟩)

theorem limited_aborted_iff {w : W} {m : Method} {t : Bytes} {k : Int} (hn : ∀ k', needs w m t k' ↔ k' = k)
    (h2 : M.maxAlloc < queueSize k) (f : Fate) : (onMachine M needs K).fate w m t f ↔ f = .aborted := by
  constructor
  · rintro (⟨_, _, _, e⟩ | ⟨k', h, _, h', _⟩ | ⟨h, _⟩)
    · exact e
    · cases (hn k').1 h
      omega
    · have := (h k ((hn k).2 rfl)).2
      omega
  · exact fun e => .inl ⟨k, (hn k).2 rfl, h2, e⟩

end

/-! ### The suggest server -/

section
variable {ρ : Roaring} {sort : List (PList ρ) → List (PList ρ)} {F : FloatOps ℚ} {pf : Bytes → Except Err F64} {num : ℚ → Bytes}

theorem config_form {form : String → Bytes} {query : String} {conf : SearchConfig MetricName}
    (h3 : buildSearchConfig pf form query = .ok conf) : formTopK (form "topK") 5 = .ok conf.topK := by
  unfold buildSearchConfig at h3
  split at h3
  · cases h3
  rename_i k hk
  split at h3
  · cases h3
  split at h3
  · cases h3
  unfold newSearchConfig at h3
  split at h3
  · cases h3
  · split at h3
    · cases h3
    · cases h3
      exact hk

/-- The size of the queue is the limit in the request. -/
theorem queue_form {w : World} {m : Method} {t : Bytes} {k : Int} (h : SuggestQueue F ρ sort pf w m t k) :
    ∃ path raw, parseTarget t = .ok (path, raw) ∧ formTopK (formValue raw "topK") 5 = .ok k := by
  cases h with
  | suggest h1 _ h3 => exact ⟨_, _, h1, config_form h3⟩
  | suggestNaN h1 _ h3 => exact ⟨_, _, h1, config_form h3⟩
  | complete h1 _ h3 => exact ⟨_, _, h1, h3⟩

/-- **C94, partial** On a machine with `M.available` bytes for a queue, the suggest server never ends and leaves no client without an
answer because of another client, under the conditions of `C94_suggest_survives_partial`, if moreover no client asks for more than
`M.available / 16` results (or for more than `make` can ever allocate). -/
theorem C94_suggest_memory_partial (L : ρ.Lawful) {G : Gob} (LG : G.Lawful) (hs : ∀ r, (sort r).Perm r) {M : Machine} {wraps : Nat}
    {reload : World → World → Prop} (hreload : ∀ w w', reload w w' → WellBuilt ρ G wraps w') {client : Method → Bytes → Prop}
    (hshort : ∀ m t, client m t → t.length + wraps ≤ 65535)
    (hlist : (∀ t, client .get t → ∀ path raw, parseTarget t = .ok (path, raw) → route .get path ≠ .dictList) ∨ ∀ w w', ¬ reload w w')
    (hmem : ∀ m t, client m t → ∀ path raw k, parseTarget t = .ok (path, raw) → formTopK (formValue raw "topK") 5 = .ok k →
      16 * k ≤ M.available ∨ M.maxAlloc < 16 * k)
    {w : World} (hw : WellBuilt ρ G wraps w) {s : State World}
    (h : Steps (suggestServerOn M F ρ sort pf num reload) client (Fresh w) s) :
    s.up = true ∧ ∀ m t, (m, t, Conn.cut) ∉ s.conns := by
  have key := server_survives (K := suggestServerOn M F ρ sort pf num reload) (client := client) (I := WellBuilt ρ G wraps)
    (fun w w' _ hc => hreload w w' hc) (fun w m t hI hc => limited_not_fatal (K := suggestServer F ρ sort pf num reload) (needs := SuggestQueue F ρ sort pf) (short_not_fatal L LG hs hI (hshort m t hc)) fun k hk => by
      obtain ⟨path, raw, h1, h2⟩ := queue_form hk
      exact hmem m t hc path raw k h1 h2) (by
      rcases hlist with hl | hl
      · left
        rintro m t hc ⟨path, raw, h1, h2⟩
        have hm := list_get h2
        subst hm
        exact hl t hc path raw h1 h2
      · exact .inr hl) hw h
  exact ⟨key.1, fun m t hc => (key.2.2 _ hc).2⟩

variable {dict query dict' query' raw : Bytes} {kvs : List (Bytes × Bytes)} {k : Int}

theorem complete_queue (hd : PctEncoded false dict dict') (hsd : PathSegment dict)
    (hq : PctEncoded false query query') (hsq : PathSegment query) (hform : FormEncoded kvs raw)
    (hk : IsDecimal (fieldValue kvs "topK".toUTF8.toList) k) (h0 : 0 ≤ k) (h63 : k < 2 ^ 63)
    {w : World} {p : Published} {toks : List Bytes} (hpub : w.published dict = some p) (htok : p.completeTok query = .ok toks) (k' : Int) :
    SuggestQueue F ρ sort pf w .get (searchTarget "autocomplete" dict' query' raw) k' ↔ k' = k := by
  obtain ⟨path, h1, h2⟩ := (C88_request hd hsd hq hsq (form_plain hform)).2
  have hargs : formTopK (formValue raw "topK") 5 = .ok k := by
    rw [C88_form hform]
    exact C55_topK.2 (.inr ⟨hk, h0, h63⟩)
  constructor
  · intro h
    obtain ⟨path', raw', g1, g2⟩ := queue_form h
    rw [h1] at g1; cases g1
    rw [hargs] at g2; cases g2
    rfl
  · rintro rfl
    exact .complete h1 h2 hargs hpub htok

/-- **C94** is false on every real machine: let `M.available` be the memory that can be had. One request
"GET /autocomplete/<dictionary>/<query>/?topK=k" for a published dictionary, with a `k` whose queue does not fit into the memory but is not
larger than `make` accepts (2^48 bytes), has no other outcome than the end of the process; the requests of all other clients that are not
answered yet are cut. -/
theorem C94_huge_topK_kills {M : Machine} (hd : PctEncoded false dict dict') (hsd : PathSegment dict)
    (hq : PctEncoded false query query') (hsq : PathSegment query) (hform : FormEncoded kvs raw)
    (hk : IsDecimal (fieldValue kvs "topK".toUTF8.toList) k) (h63 : k < 2 ^ 63) (hav : M.available < 16 * k)
    (hmax : 16 * k ≤ M.maxAlloc) {reload : World → World → Prop} {client : Method → Bytes → Prop}
    (hc : client .get (searchTarget "autocomplete" dict' query' raw)) {s : State World} (hup : s.up = true) {p : Published}
    {toks : List Bytes} (hpub : s.world.published dict = some p) (htok : p.completeTok query = .ok toks) :
    (∀ f, (suggestServerOn M F ρ sort pf num reload).fate s.world .get (searchTarget "autocomplete" dict' query' raw) f ↔ f = .fatal) ∧
    ∃ s', Steps (suggestServerOn M F ρ sort pf num reload) client s s' ∧ s'.up = false ∧
      ∀ (i : Nat) (m : Method) (t : Bytes) (c : Conn World), s.conns[i]? = some (m, t, c) → c.open = true →
        s'.conns[i]? = some (m, t, .cut) := by
  have h0 : 0 ≤ k := by
    have : (0 : Int) ≤ M.available := Int.natCast_nonneg _
    omega
  have key : ∀ f, (suggestServerOn M F ρ sort pf num reload).fate s.world .get (searchTarget "autocomplete" dict' query' raw) f ↔
      f = .fatal := limited_fatal_iff (complete_queue hd hsd hq hsq hform hk h0 h63 hpub htok) hav hmax
  exact ⟨key, server_dies hup hc ((key _).2 rfl)⟩

/-- **C94** A still larger number of results only aborts the request itself. -/
theorem C94_larger_topK_aborts {M : Machine} (hd : PctEncoded false dict dict') (hsd : PathSegment dict)
    (hq : PctEncoded false query query') (hsq : PathSegment query) (hform : FormEncoded kvs raw)
    (hk : IsDecimal (fieldValue kvs "topK".toUTF8.toList) k) (h63 : k < 2 ^ 63) (hmax : M.maxAlloc < 16 * k)
    {reload : World → World → Prop} {w : World} {p : Published} {toks : List Bytes} (hpub : w.published dict = some p)
    (htok : p.completeTok query = .ok toks) (f : Fate) :
    (suggestServerOn M F ρ sort pf num reload).fate w .get (searchTarget "autocomplete" dict' query' raw) f ↔ f = .aborted := by
  have h0 : 0 ≤ k := by
    have : (0 : Int) ≤ M.maxAlloc := Int.natCast_nonneg _
    omega
  exact limited_aborted_iff (complete_queue hd hsd hq hsq hform hk h0 h63 hpub htok) hmax f

end

/-! ### The spell checker server -/

section
variable {S : Type} [LinearOrder S] [Inhabited S] {sc : SpellChecker} {docs : List Doc} {files : List (List (List Nat × Nat))}
  {id : Bytes → Nat} {start : Nat} {F : FloatOps S} {real : ℚ → S} {val : LMScore → S} {pf : Bytes → Except Err F64}

theorem args_form {form : String → Bytes} {topK : Int} {x : F64} (h3 : predictArgs pf form = .ok (topK, x)) :
    formTopK (form "topK") 5 = .ok topK := by
  unfold predictArgs at h3
  split at h3
  · cases h3
  · rename_i k hk
    split at h3
    · cases h3
    · cases h3
      exact hk

/-- **C94, partial** The same for the spell checker server, under the conditions of `C94_predict_survives_partial`. -/
theorem C94_predict_memory_partial (L : sc.ρ.Lawful) {G : Gob} (LG : G.Lawful) (hd : GoodDocs docs) (hf : FirstNonempty docs)
    (hoi : IndexOf sc.ρ G docs sc.index) (hs : ∀ r, (sc.sort r).Perm r) (hm : SpellModel sc files id start) {M : Machine}
    {client : Method → Bytes → Prop}
    (hclient : ∀ m t, client m t → ∀ path raw query, parseTarget t = .ok (path, raw) → routeSpell m path = .predict query →
      (∀ x, predictArgs pf (formValue raw) ≠ .ok (0, x)) ∧
      ∀ w, LastWord sc query w → (sc.prefixGrams w).length ≤ 65535 ∧ (sc.grams w).length ≤ 65535)
    (hmem : ∀ m t, client m t → ∀ path raw k, parseTarget t = .ok (path, raw) → formTopK (formValue raw "topK") 5 = .ok k →
      16 * k ≤ M.available ∨ M.maxAlloc < 16 * k)
    {s : State Unit} (h : Steps (spellServerOn M F real val sc pf) client (Fresh ()) s) :
    s.up = true ∧ ∀ m t, (m, t, Conn.cut) ∉ s.conns := by
  have key := server_survives (K := spellServerOn M F real val sc pf) (client := client) (I := fun _ => True)
    (fun _ _ _ _ => trivial) (fun _ m t _ hc => limited_not_fatal (K := spellServer F real val sc pf) (needs := fun _ => PredictQueue sc pf)
      (show ¬ SpellFate F real val sc pf m t .fatal from spell_not_fatal L LG hd hf hoi hs hm (hclient m t hc)) fun k hk => by
        cases hk with
        | predict h1 _ h3 => exact hmem m t hc _ _ k h1 (args_form h3))
    (.inl fun _ _ _ h => h) trivial h
  exact ⟨key.1, fun m t hc => (key.2.2 _ hc).2⟩

/-- **C94** is false on every real machine for the spell checker server too: a request "GET /predict/<query>/?topK=k" for a query with a
word, with a `k` whose queue does not fit into the memory but is not larger than `make` accepts. -/
theorem C94_predict_huge_topK_kills {M : Machine} {query query' raw : Bytes} {kvs : List (Bytes × Bytes)} {k : Int}
    (hm : SpellModel sc files id start) (hq : PctEncoded false query query')
    (hsq : PathSegment query) (hform : FormEncoded kvs raw) (hk : IsDecimal (fieldValue kvs "topK".toUTF8.toList) k) (h63 : k < 2 ^ 63)
    (hsim : fieldValue kvs "similarity".toUTF8.toList = []) (hne : sc.tokenize query ≠ []) (hav : M.available < 16 * k)
    (hmax : 16 * k ≤ M.maxAlloc) {client : Method → Bytes → Prop} (hc : client .get (predictTarget query' raw)) {s : State Unit}
    (hup : s.up = true) :
    (∀ f, (spellServerOn M F real val sc pf).fate () .get (predictTarget query' raw) f ↔ f = .fatal) ∧
    ∃ s', Steps (spellServerOn M F real val sc pf) client s s' ∧ s'.up = false ∧
      ∀ (i : Nat) (m : Method) (t : Bytes) (c : Conn Unit), s.conns[i]? = some (m, t, c) → c.open = true →
        s'.conns[i]? = some (m, t, .cut) := by
  obtain ⟨path, h1, h2⟩ := C90_request hq hsq (form_plain hform)
  have h0 : 0 ≤ k := by
    have : (0 : Int) ≤ M.available := Int.natCast_nonneg _
    omega
  have hargs : predictArgs pf (formValue raw) = .ok (k, .num (1 / 2)) := by
    unfold predictArgs
    rw [C88_form hform, C88_form hform, C55_topK.2 (.inr ⟨hk, h0, h63⟩), hsim, C55_similarity.2 (.inl ⟨rfl, rfl⟩)]
  obtain ⟨seq, word, ht⟩ : ∃ seq word, sc.tokenize query = seq ++ [word] :=
    ⟨_, _, (List.dropLast_append_getLast hne).symm⟩
  obtain ⟨next, hn, _⟩ := spell_scores (S := S) hm seq
  have hneeds : ∀ k', PredictQueue sc pf .get (predictTarget query' raw) k' ↔ k' = k := by
    intro k'
    constructor
    · rintro ⟨g1, _, g3, _⟩
      rw [h1] at g1; cases g1
      rw [hargs] at g3; cases g3
      rfl
    · rintro rfl
      exact .predict h1 h2 hargs ht hn
  have key : ∀ f, (spellServerOn M F real val sc pf).fate () .get (predictTarget query' raw) f ↔ f = .fatal :=
    limited_fatal_iff (w := ()) (needs := fun _ => PredictQueue sc pf) hneeds hav hmax
  exact ⟨key, server_dies hup hc ((key _).2 rfl)⟩

end
end Verif.Props
