import Verif.Proofs.SuggestInv
import Mathlib.Logic.Relation
/- Constructing concrete executions of Suggest. -/
namespace Verif
open Spec Heap TopKQueue

section
variable {S : Type} [LinearOrder S] [Inhabited S] {Env : Type} (c : SConf S Env)

/-- Any number of steps. -/
abbrev SConf.Run : SState S → SState S → Prop := Relation.ReflTransGen c.Step

variable {c}

theorem SConf.Reachable.run {s s' : SState S} (h : c.Reachable s) (hr : c.Run s s') : c.Reachable s' := by
  induction hr with
  | refl => exact h
  | tail _ h2 ih => exact ih.step h2

theorem run_send {cl : Bool} {cap : Nat} {al : S} {g : TopKQueue S} {lk : Bool} {ws : List (Worker S)} :
    ∀ (l ch : List Int), ch.length + l.length ≤ cap →
    c.Run ⟨l, cl, ch, cap, al, g, lk, ws, none⟩ ⟨[], cl, ch ++ l, cap, al, g, lk, ws, none⟩
  | [], ch, _ => by rw [List.append_nil]
  | b :: l, ch, h => by
    rw [List.length_cons] at h
    have := run_send (cl := cl) (cap := cap) (al := al) (g := g) (lk := lk) (ws := ws) l (ch ++ [b]) (by simp; omega)
    rw [List.append_assoc] at this
    refine Relation.ReflTransGen.head ?_ this
    exact .send (s := ⟨b :: l, cl, ch, cap, al, g, lk, ws, none⟩) rfl rfl (by show ch.length < cap; omega)

/-- The first worker drops sizes without an index. -/
theorem run_drop {ts : List Int} {cl : Bool} {cap : Nat} {al : S} {g : TopKQueue S} {lk : Bool} {ws : List (Worker S)} :
    ∀ (l rest : List Int), (∀ b ∈ l, c.indices.get b = none) →
    c.Run ⟨ts, cl, l ++ rest, cap, al, g, lk, .idle :: ws, none⟩ ⟨ts, cl, rest, cap, al, g, lk, .idle :: ws, none⟩
  | [], rest, _ => .refl
  | b :: l, rest, h => by
    have ih := run_drop (ts := ts) (cl := cl) (cap := cap) (al := al) (g := g) (lk := lk) (ws := ws) l rest
      (fun x hx => h x (List.mem_cons_of_mem _ hx))
    refine Relation.ReflTransGen.head (b := ⟨ts, cl, l ++ rest, cap, al, g, lk, .got b :: ws, none⟩) ?_
      (Relation.ReflTransGen.head (b := ⟨ts, cl, l ++ rest, cap, al, g, lk, .loaded b al :: ws, none⟩) ?_
      (Relation.ReflTransGen.head (b := ⟨ts, cl, l ++ rest, cap, al, g, lk, .idle :: ws, none⟩) ?_ ih))
    · exact .recv (s := ⟨ts, cl, b :: (l ++ rest), cap, al, g, lk, .idle :: ws, none⟩) (i := 0) rfl rfl rfl
    · exact .load (s := ⟨ts, cl, l ++ rest, cap, al, g, lk, .got b :: ws, none⟩) (i := 0) rfl rfl
    · exact .skip (s := ⟨ts, cl, l ++ rest, cap, al, g, lk, .loaded b al :: ws, none⟩) (i := 0) rfl rfl
        (.inr (.inr (.inr (h b List.mem_cons_self))))

/-- The first worker takes a size and loads the bound. -/
theorem run_take {ts : List Int} {cl : Bool} {b : Int} {rest : List Int} {cap : Nat} {al : S} {g : TopKQueue S}
    {lk : Bool} {ws : List (Worker S)} :
    c.Run ⟨ts, cl, b :: rest, cap, al, g, lk, .idle :: ws, none⟩ ⟨ts, cl, rest, cap, al, g, lk, .loaded b al :: ws, none⟩ :=
  Relation.ReflTransGen.head (b := ⟨ts, cl, rest, cap, al, g, lk, .got b :: ws, none⟩)
    (.recv (s := ⟨ts, cl, b :: rest, cap, al, g, lk, .idle :: ws, none⟩) (i := 0) rfl rfl rfl)
    (.single (.load (s := ⟨ts, cl, rest, cap, al, g, lk, .got b :: ws, none⟩) (i := 0) rfl rfl))

/-- The second worker takes a size and loads the bound. -/
theorem run_take2 {ts : List Int} {cl : Bool} {b : Int} {rest : List Int} {cap : Nat} {al : S} {g : TopKQueue S}
    {lk : Bool} {w : Worker S} {ws : List (Worker S)} :
    c.Run ⟨ts, cl, b :: rest, cap, al, g, lk, w :: .idle :: ws, none⟩
      ⟨ts, cl, rest, cap, al, g, lk, w :: .loaded b al :: ws, none⟩ :=
  Relation.ReflTransGen.head (b := ⟨ts, cl, rest, cap, al, g, lk, w :: .got b :: ws, none⟩)
    (.recv (s := ⟨ts, cl, b :: rest, cap, al, g, lk, w :: .idle :: ws, none⟩) (i := 1) rfl rfl rfl)
    (.single (.load (s := ⟨ts, cl, rest, cap, al, g, lk, w :: .got b :: ws, none⟩) (i := 1) rfl rfl))

variable {docs : List Doc} {q : List String}

/-- A worker searches and commits. -/
theorem run_search {K : Nat} (hK : 0 < K) (htop : c.topK = K) (hs : SegmentsOk c.indices docs q)
    (hd : DocsOk docs q c.sizeA) (env : Env) {s : SState S} {i : Nat} {b : Int} {a : S} {C : Multiset (Candidate S)}
    (hnp : s.panicked = none) (hw : s.workers[i]? = some (.loaded b a)) (hlk : s.locked = false)
    (hq : s.queue.Holds K C) (hsk : ¬ c.skips a b) (hpos : 1 ≤ c.thr a b) :
    ∃ g, g.Holds K (C + foundAt c docs q b a) ∧
      c.Run s { s with queue := g, alpha := SConf.raise s.alpha g, workers := s.workers.set i .idle } := by
  have hget : ∃ f, c.indices.get b = some f := by
    cases hg : c.indices.get b with
    | none => exact absurd (.inr (.inr (.inr hg))) hsk
    | some f => exact ⟨f, rfl⟩
  obtain ⟨f, hf⟩ := hget
  obtain ⟨q0, e0⟩ := new_ok (S := S) K
  rw [← htop] at e0
  obtain ⟨q', e1, h1⟩ := search_found_of hK htop hs hd hpos hf e0 env
  obtain ⟨g, e2, h2⟩ := merge_spec hq h1
  refine ⟨g, h2, ?_⟩
  have hil : i < s.workers.length := (List.getElem?_eq_some_iff.1 hw).1
  have hset : ∀ w : Worker S, (s.workers.set i w)[i]? = some w := fun w => by simp [hil]
  refine Relation.ReflTransGen.head (.search env hnp hw hsk hf e0 e1) ?_
  refine Relation.ReflTransGen.head (.commit (b := b) (q := q') (i := i) (g := g) hnp (hset _) hlk e2) ?_
  refine Relation.ReflTransGen.head (.raise (i := i) hnp (by simp [List.set_set, hil])) ?_
  refine Relation.ReflTransGen.head (.unlock (i := i) hnp (by simp [List.set_set, hil])) ?_
  simp only [List.set_set, hlk]
  exact .refl

/-- All (five) workers leave. -/
theorem run_exit {cap : Nat} {al : S} {g : TopKQueue S} {lk : Bool} :
    c.Run ⟨[], true, [], cap, al, g, lk, [.idle, .idle, .idle, .idle, .idle], none⟩
      ⟨[], true, [], cap, al, g, lk, [.done none, .done none, .done none, .done none, .done none], none⟩ := by
  refine Relation.ReflTransGen.head (b := ⟨[], true, [], cap, al, g, lk, [.done none, .idle, .idle, .idle, .idle], none⟩)
    (.exit (s := ⟨[], true, [], cap, al, g, lk, [.idle, .idle, .idle, .idle, .idle], none⟩) (i := 0) rfl rfl rfl rfl) ?_
  refine Relation.ReflTransGen.head (b := ⟨[], true, [], cap, al, g, lk, [.done none, .done none, .idle, .idle, .idle], none⟩)
    (.exit (s := ⟨[], true, [], cap, al, g, lk, [.done none, .idle, .idle, .idle, .idle], none⟩) (i := 1) rfl rfl rfl rfl) ?_
  refine Relation.ReflTransGen.head (b := ⟨[], true, [], cap, al, g, lk, [.done none, .done none, .done none, .idle, .idle], none⟩)
    (.exit (s := ⟨[], true, [], cap, al, g, lk, [.done none, .done none, .idle, .idle, .idle], none⟩) (i := 2) rfl rfl rfl rfl) ?_
  refine Relation.ReflTransGen.head (b := ⟨[], true, [], cap, al, g, lk, [.done none, .done none, .done none, .done none, .idle], none⟩)
    (.exit (s := ⟨[], true, [], cap, al, g, lk, [.done none, .done none, .done none, .idle, .idle], none⟩) (i := 3) rfl rfl rfl rfl) ?_
  exact .single (.exit (s := ⟨[], true, [], cap, al, g, lk, [.done none, .done none, .done none, .done none, .idle], none⟩) (i := 4) rfl rfl rfl rfl)

end
end Verif
