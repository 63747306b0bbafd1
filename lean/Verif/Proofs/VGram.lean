import Verif.Model.VGram
import Verif.Proofs.Text
/- Proofs about the frequency trie (property C87). -/
namespace Verif.VGram
open FNode

theorem child_setChild (c : Nat) (n : FNode) (cs : List (Nat × FNode)) (d : Nat) :
    child (setChild c n cs) d = if d = c then some n else child cs d := by
  induction cs with
  | nil =>
    simp only [setChild, child, List.lookup]
    by_cases h : d = c
    · simp [h]
    · have h' : (d == c) = false := by simpa using h
      simp [h, h']
  | cons x cs ih =>
    obtain ⟨u, m⟩ := x
    simp only [setChild]
    by_cases huc : u = c
    · subst huc
      simp only [if_true, child, List.lookup]
      by_cases h : d = u
      · simp [h]
      · have : (d == u) = false := by simpa using h
        simp [this, h]
    · simp only [huc, if_false]
      simp only [child, List.lookup] at ih ⊢
      by_cases h : d = u
      · subst h; simp [huc]
      · have h' : (d == u) = false := by simpa using h
        simp only [h']
        exact ih

theorem keys_setChild (c : Nat) (n : FNode) (cs : List (Nat × FNode)) :
    (setChild c n cs).map Prod.fst = if c ∈ cs.map Prod.fst then cs.map Prod.fst else cs.map Prod.fst ++ [c] := by
  induction cs with
  | nil => simp [setChild]
  | cons x cs ih =>
    obtain ⟨u, d⟩ := x
    simp only [setChild]
    by_cases huc : u = c
    · subst huc; simp
    · simp only [huc, if_false, List.map_cons, ih]
      have : c ≠ u := fun h => huc h.symm
      by_cases hm : c ∈ cs.map Prod.fst
      · simp [hm, this]
      · simp [hm, this]

theorem nodup_setChild {c : Nat} {n : FNode} {cs : List (Nat × FNode)} (h : (cs.map Prod.fst).Nodup) :
    ((setChild c n cs).map Prod.fst).Nodup := by
  rw [keys_setChild]
  split
  · exact h
  · rename_i hm
    exact List.nodup_append.2 ⟨h, by simp, by rintro a ha b hb rfl; simp at hb; subst hb; exact hm ha⟩

theorem mem_of_child {cs : List (Nat × FNode)} {w : Nat} {c : FNode} (h : child cs w = some c) : (w, c) ∈ cs := by
  induction cs with
  | nil => cases h
  | cons x cs ih =>
    obtain ⟨u, d⟩ := x
    simp only [child, List.lookup] at h ih
    by_cases hw : w = u
    · subst hw
      simp at h; subst h; simp
    · have : (w == u) = false := by simpa using hw
      simp only [this] at h
      exact List.mem_cons_of_mem _ (ih h)

theorem child_of_mem {cs : List (Nat × FNode)} {w : Nat} {c : FNode} (hn : (cs.map Prod.fst).Nodup)
    (h : (w, c) ∈ cs) : child cs w = some c := by
  induction cs with
  | nil => cases h
  | cons x cs ih =>
    obtain ⟨u, d⟩ := x
    simp only [List.map_cons, List.nodup_cons] at hn
    simp only [child, List.lookup] at ih ⊢
    rcases List.mem_cons.1 h with h' | h'
    · cases h'; simp
    · have hne : w ≠ u := by
        rintro rfl
        exact hn.1 (List.mem_map.2 ⟨_, h', rfl⟩)
      have : (w == u) = false := by simpa using hne
      simp only [this]
      exact ih hn.2 h'

theorem child_none {cs : List (Nat × FNode)} {w : Nat} : child cs w = none ↔ w ∉ cs.map Prod.fst := by
  induction cs with
  | nil => simp [child, List.lookup]
  | cons x cs ih =>
    obtain ⟨u, d⟩ := x
    simp only [child, List.lookup] at ih ⊢
    by_cases hw : w = u
    · subst hw; simp
    · have : (w == u) = false := by simpa using hw
      simp only [this, List.map_cons, List.mem_cons, hw, false_or]
      exact ih

/-- The remainders of the grams that begin with `c`. -/
def sub (c : Nat) : List (List Nat) → List (List Nat)
  | [] => []
  | [] :: gs => sub c gs
  | (d :: g) :: gs => if d = c then g :: sub c gs else sub c gs

theorem mem_sub {c : Nat} {gs : List (List Nat)} {g : List Nat} : g ∈ sub c gs ↔ c :: g ∈ gs := by
  induction gs with
  | nil => simp [sub]
  | cons x gs ih =>
    cases x with
    | nil => simp [sub, ih]
    | cons d x =>
      simp only [sub]
      split
      · rename_i h; subst h; simp [ih]
      · rename_i h
        have : ¬ c = d := fun e => h e.symm
        simp [ih, this]

theorem sub_ne_nil {c : Nat} {gs : List (List Nat)} : sub c gs ≠ [] ↔ ∃ g ∈ gs, g.head? = some c := by
  rw [Ne, List.eq_nil_iff_forall_not_mem]
  push Not
  constructor
  · rintro ⟨g, hg⟩
    exact ⟨_, mem_sub.1 hg, rfl⟩
  · rintro ⟨g, hg, hh⟩
    cases g with
    | nil => simp at hh
    | cons d g => simp at hh; subst hh; exact ⟨g, mem_sub.2 hg⟩

theorem length_sub_le (c : Nat) (gs : List (List Nat)) : (sub c gs).length ≤ gs.length := by
  induction gs with
  | nil => simp [sub]
  | cons x gs ih =>
    cases x with
    | nil => simp [sub]; omega
    | cons d x => simp only [sub]; split <;> simp <;> omega

theorem countP_sub (c : Nat) (gs : List (List Nat)) (f : List Nat → Bool) :
    (sub c gs).countP f = gs.countP (fun g => match g with | [] => false | d :: g => decide (d = c) && f g) := by
  induction gs with
  | nil => simp [sub]
  | cons x gs ih =>
    cases x with
    | nil => simp [sub, ih]
    | cons d x =>
      simp only [sub]
      split
      · rename_i h; subst h; simp [List.countP_cons, ih]
      · rename_i h; simp [ih, h]

theorem length_sub (c : Nat) (gs : List (List Nat)) : (sub c gs).length = gs.countP (fun g => decide (g.head? = some c)) := by
  have := countP_sub c gs (fun _ => true)
  simp only [List.countP_true] at this
  rw [this]
  congr 1
  funext g
  cases g <;> simp

/-- The grams that stay at a node with the children `keys`: those that end there or go on with another character. -/
def stays (keys : List Nat) (g : List Nat) : Bool :=
  match g.head? with
  | none => true
  | some c => decide (c ∉ keys)

/-- What a node at path `p` (with marker iff `mk p`) says about the grams `gs` (their parts behind `p`): `GRep` holds for
tries built by adding grams and for pruned ones. -/
inductive GRep (mk : List Nat → Bool) : List Nat → List (List Nat) → FNode → Prop
  | node {p gs freq marker cs} : (p ≠ [] → freq = gs.length) →
      marker = (if mk p then some (gs.countP (stays (cs.map Prod.fst))) else none) → (cs.map Prod.fst).Nodup →
      (∀ c ∈ cs.map Prod.fst, sub c gs ≠ []) → (mk p = false → ∀ c, sub c gs ≠ [] → c ∈ cs.map Prod.fst) →
      (∀ c n, (c, n) ∈ cs → GRep mk (p ++ [c]) (sub c gs) n) → GRep mk p gs (.mk freq marker cs)

/-- No gram has been merged away. -/
inductive Full : List (List Nat) → FNode → Prop
  | node {gs freq marker cs} : (∀ c, sub c gs ≠ [] → c ∈ cs.map Prod.fst) → (∀ c n, (c, n) ∈ cs → Full (sub c gs) n) →
      Full gs (.mk freq marker cs)

/-- The marks that `Add` computes agree with `mk`. -/
def MarksAgree (mk : List Nat → Bool) (qMin : Nat) : List Nat → List (Nat × Nat) → Prop
  | _, [] => True
  | p, (i, c) :: rest => mk (p ++ [c]) = decide (u32 (i + 1) ≥ qMin) ∧ MarksAgree mk qMin (p ++ [c]) rest

theorem u32_lt {n : Nat} (h : n < 2 ^ 32) : u32 n = n := Nat.mod_eq_of_lt h

theorem countP_stays_nil {gs : List (List Nat)} {keys : List Nat} (h : ∀ c, sub c gs ≠ [] → c ∈ keys) :
    gs.countP (stays keys) = gs.count [] := by
  rw [List.count]
  refine List.countP_congr fun g hg => ?_
  cases g with
  | nil => simp [stays]
  | cons c g =>
    have : c ∈ keys := h c (sub_ne_nil.2 ⟨_, hg, rfl⟩)
    simp [stays, this]

theorem addPath_spec {mk : List Nat → Bool} {qMin : Nat} : ∀ (l : List (Nat × Nat)) {p : List Nat} {gs : List (List Nat)} {freq cs},
    (p ≠ [] → freq = gs.length + 1) → (cs.map Prod.fst).Nodup → (∀ c ∈ cs.map Prod.fst, sub c gs ≠ []) →
    (∀ c, sub c gs ≠ [] → c ∈ cs.map Prod.fst) → (∀ c n, (c, n) ∈ cs → GRep mk (p ++ [c]) (sub c gs) n ∧ Full (sub c gs) n) →
    MarksAgree mk qMin p l → gs.length + 1 < 2 ^ 32 →
    GRep mk p (l.map Prod.snd :: gs) (addPath qMin (.mk freq (if mk p then some (gs.count []) else none) cs) l) ∧
      Full (l.map Prod.snd :: gs) (addPath qMin (.mk freq (if mk p then some (gs.count []) else none) cs) l)
  | [], p, gs, freq, cs, hf, hn, hk, hfull, hc, _, hlen => by
    have hsub : ∀ c, sub c ([] :: gs) = sub c gs := fun c => rfl
    simp only [addPath, List.map_nil, FNode.frequency, FNode.marker, FNode.children]
    refine ⟨.node (fun h => by rw [hf h]; rfl) ?_ hn (fun c h => hk c h) (fun _ c h => hfull c h) (fun c n h => (hc c n h).1),
      .node (fun c h => hfull c h) (fun c n h => (hc c n h).2)⟩
    have e : ([] :: gs).countP (stays (cs.map Prod.fst)) = gs.count [] + 1 := by
      rw [List.countP_cons, countP_stays_nil hfull]; simp [stays]
    rw [e]
    have : gs.count [] ≤ gs.length := List.count_le_length
    by_cases hm : mk p <;> simp [hm]
    exact u32_lt (by omega)
  | (i, ch) :: rest, p, gs, freq, cs, hf, hn, hk, hfull, hc, hmk, hlen => by
    obtain ⟨hm, hrest⟩ := hmk
    have hsub : ∀ c, sub c ((ch :: rest.map Prod.snd) :: gs) = if ch = c then rest.map Prod.snd :: sub c gs else sub c gs :=
      fun c => rfl
    simp only [addPath, List.map_cons, FNode.frequency, FNode.marker, FNode.children]
    -- the child
    have hchild : GRep mk (p ++ [ch]) (rest.map Prod.snd :: sub ch gs) (addPath qMin (touch qMin i (child cs ch)) rest) ∧
        Full (rest.map Prod.snd :: sub ch gs) (addPath qMin (touch qMin i (child cs ch)) rest) := by
      have hls := length_sub_le ch gs
      cases hcc : child cs ch with
      | none =>
        have hnk : ch ∉ cs.map Prod.fst := child_none.1 hcc
        have hs0 : sub ch gs = [] := by
          by_contra h; exact hnk (hfull ch h)
        have := addPath_spec (mk := mk) (qMin := qMin) rest (p := p ++ [ch]) (gs := []) (freq := 1) (cs := [])
          (fun _ => rfl) (by simp) (by simp) (by simp [sub]) (by simp) hrest (by simp)
        rw [hs0]
        have e : touch qMin i none = .mk 1 (if mk (p ++ [ch]) then some (([] : List (List Nat)).count []) else none) [] := by
          simp only [touch, Option.getD_none, fresh, FNode.frequency, FNode.marker, FNode.children, hm]
          have : u32 (0 + 1) = 1 := rfl
          rw [this]
          by_cases hq : u32 (i + 1) ≥ qMin <;> simp [hq]
        rw [e]; exact this
      | some n =>
        have hmem := mem_of_child hcc
        obtain ⟨h1, h2⟩ := hc ch n hmem
        cases h1 with
        | node g1 g2 g3 g4 g5 g6 =>
          rename_i f' m' cs'
          cases h2 with
          | node k1 k2 =>
            have g1' := g1 (by simp)
            have := addPath_spec (mk := mk) (qMin := qMin) rest (p := p ++ [ch]) (gs := sub ch gs) (freq := f' + 1) (cs := cs')
              (fun _ => by rw [g1']) g3 g4 k1 (fun c n h => ⟨g6 c n h, k2 c n h⟩) hrest (by omega)
            have e : touch qMin i (some (.mk f' m' cs')) =
                .mk (f' + 1) (if mk (p ++ [ch]) then some ((sub ch gs).count []) else none) cs' := by
              simp only [touch, Option.getD_some, FNode.frequency, FNode.marker, FNode.children]
              rw [u32_lt (by omega)]
              rw [countP_stays_nil k1] at g2
              by_cases hq : mk (p ++ [ch]) = true
              · simp [g2, hq]
              · have hq' : ¬ u32 (i + 1) ≥ qMin := by
                  intro h; rw [hm] at hq; exact hq (by simpa using h)
                simp [g2, hq, hq']
            rw [e]; exact this
    have hkeys : ∀ c, c ∈ (setChild ch (addPath qMin (touch qMin i (child cs ch)) rest) cs).map Prod.fst ↔
        c ∈ cs.map Prod.fst ∨ c = ch := by
      intro c
      rw [keys_setChild]
      split
      · rename_i h
        constructor
        · exact Or.inl
        · rintro (h' | rfl) <;> assumption
      · simp only [List.mem_append, List.mem_singleton]
    have hall : ∀ c, sub c ((ch :: rest.map Prod.snd) :: gs) ≠ [] →
        c ∈ (setChild ch (addPath qMin (touch qMin i (child cs ch)) rest) cs).map Prod.fst := by
      intro c h
      rw [hsub] at h
      rw [hkeys]
      by_cases e : ch = c
      · exact Or.inr e.symm
      · rw [if_neg e] at h; exact Or.inl (hfull c h)
    have hboth : ∀ c n, (c, n) ∈ setChild ch (addPath qMin (touch qMin i (child cs ch)) rest) cs →
        GRep mk (p ++ [c]) (sub c ((ch :: rest.map Prod.snd) :: gs)) n ∧ Full (sub c ((ch :: rest.map Prod.snd) :: gs)) n := by
      intro c n h
      have h' := child_of_mem (nodup_setChild hn) h
      rw [child_setChild] at h'
      rw [hsub]
      by_cases e : c = ch
      · subst e
        rw [if_pos rfl] at h'; cases h'
        rw [if_pos rfl]; exact hchild
      · rw [if_neg e] at h'
        rw [if_neg (fun h => e h.symm)]
        exact hc c n (mem_of_child h')
    refine ⟨.node (fun h => by rw [hf h]; rfl) ?_ (nodup_setChild hn) ?_ (fun _ c h => hall c h)
      (fun c n h => (hboth c n h).1), .node hall (fun c n h => (hboth c n h).2)⟩
    · rw [countP_stays_nil hall]
      simp
    · intro c h
      rw [hkeys] at h
      rw [hsub]
      by_cases e : ch = c
      · rw [if_pos e]; simp
      · rw [if_neg e]
        rcases h with h | h
        · exact hk c h
        · exact absurd h.symm e

/-! ### looking up -/

/-- The remainders of the grams that begin with `q`. -/
def subs : List Nat → List (List Nat) → List (List Nat)
  | [], gs => gs
  | c :: q, gs => subs q (sub c gs)

theorem countP_subs (q : List Nat) (gs : List (List Nat)) (f : List Nat → Bool) :
    (subs q gs).countP f = gs.countP (fun g => decide (q <+: g) && f (g.drop q.length)) := by
  induction q generalizing gs with
  | nil => simp [subs]
  | cons c q ih =>
    rw [subs, ih, countP_sub]
    congr 1
    funext g
    cases g with
    | nil => simp
    | cons d g =>
      by_cases h : d = c
      · subst h; simp
      · have h' : ¬ c = d := fun e => h e.symm
        simp [h, h']

theorem length_subs (q : List Nat) (gs : List (List Nat)) : (subs q gs).length = gs.countP (fun g => decide (q <+: g)) := by
  have := countP_subs q gs (fun _ => true)
  simpa using this

theorem findPath_grep {mk : List Nat → Bool} : ∀ (q : List Nat) {p gs n x}, GRep mk p gs n → findPath n q = some x →
    GRep mk (p ++ q) (subs q gs) x
  | [], p, gs, n, x, h, hf => by
    simp only [findPath, Option.some.injEq] at hf
    subst hf; simpa [subs] using h
  | c :: q, p, gs, n, x, h, hf => by
    cases h with
    | node g1 g2 g3 g4 g5 g6 =>
      simp only [findPath, FNode.children] at hf
      split at hf
      · cases hf
      · rename_i ch hch
        have := findPath_grep q (g6 c ch (mem_of_child hch)) hf
        simpa [subs] using this

theorem findPath_full : ∀ (q : List Nat) {gs n x}, Full gs n → findPath n q = some x → Full (subs q gs) x
  | [], gs, n, x, h, hf => by
    simp only [findPath, Option.some.injEq] at hf
    subst hf; simpa [subs] using h
  | c :: q, gs, n, x, h, hf => by
    cases h with
    | node g1 g2 =>
      simp only [findPath, FNode.children] at hf
      split at hf
      · cases hf
      · rename_i ch hch
        exact findPath_full q (g2 c ch (mem_of_child hch)) hf

theorem subs_nil (q : List Nat) : subs q [] = [] := by
  induction q with
  | nil => rfl
  | cons c q ih => simpa [subs, sub] using ih

theorem findPath_some_of_full : ∀ (q : List Nat) {gs n}, Full gs n → subs q gs ≠ [] → ∃ x, findPath n q = some x
  | [], gs, n, _, _ => ⟨n, rfl⟩
  | c :: q, gs, n, h, hs => by
    cases h with
    | node g1 g2 =>
      have : sub c gs ≠ [] := fun e => hs (by rw [subs, e, subs_nil])
      have hk := g1 c this
      simp only [findPath, FNode.children]
      split
      · rename_i hn; exact absurd hk (child_none.1 hn)
      · rename_i ch hch
        exact findPath_some_of_full q (g2 c ch (mem_of_child hch)) hs

theorem subs_ne_nil_of_find {mk : List Nat → Bool} : ∀ (q : List Nat) {p gs n x}, q ≠ [] → GRep mk p gs n → findPath n q = some x →
    subs q gs ≠ []
  | [], p, gs, n, x, h0, _, _ => absurd rfl h0
  | [c], p, gs, n, x, _, h, hf => by
    cases h with
    | node g1 g2 g3 g4 g5 g6 =>
      simp only [findPath, FNode.children] at hf
      split at hf
      · cases hf
      · rename_i ch hch
        exact g4 c (List.mem_map.2 ⟨_, mem_of_child hch, rfl⟩)
  | c :: d :: q, p, gs, n, x, _, h, hf => by
    cases h with
    | node g1 g2 g3 g4 g5 g6 =>
      rw [findPath] at hf
      simp only [FNode.children] at hf
      split at hf
      · cases hf
      · rename_i ch hch
        exact subs_ne_nil_of_find (d :: q) (by simp) (g6 c ch (mem_of_child hch)) hf

/-! ### pruning -/

theorem countP_stays_remove {gs : List (List Nat)} {K ks : List Nat} {c : Nat} (hK : c ∉ K) (hks : c ∉ ks) :
    gs.countP (stays (K ++ ks)) = gs.countP (stays (K ++ c :: ks)) + (sub c gs).length := by
  rw [length_sub]
  induction gs with
  | nil => rfl
  | cons g gs ih =>
    simp only [List.countP_cons, ih]
    cases g with
    | nil => simp [stays]; omega
    | cons d g =>
      by_cases h : d = c
      · subst h; simp [stays, hK, hks]; omega
      · by_cases h1 : d ∈ K <;> by_cases h2 : d ∈ ks <;> (simp [stays, h, h1, h2]; try omega)

theorem pruneAll_spec {T : Nat} : ∀ {cs rest : List (Nat × FNode)}, PruneAll T cs rest →
    rest.map Prod.fst = cs.map Prod.fst ∧ ∀ c n', (c, n') ∈ rest → ∃ n, (c, n) ∈ cs ∧ PruneNode T n n'
  | _, _, .nil => ⟨rfl, by simp⟩
  | _, _, .cons h t => by
    obtain ⟨h1, h2⟩ := pruneAll_spec t
    refine ⟨by simp [h1], fun c n' hm => ?_⟩
    rcases List.mem_cons.1 hm with e | e
    · cases e; exact ⟨_, List.mem_cons_self .., h⟩
    · obtain ⟨n, hn, hp⟩ := h2 c n' e
      exact ⟨n, List.mem_cons_of_mem _ hn, hp⟩

theorem pruneLoop_spec {T : Nat} {gs : List (List Nat)} (hlen : gs.length < 2 ^ 32) :
    ∀ {leaf : Nat} {cs : List (Nat × FNode)} {leaf' : Nat} {rest : List (Nat × FNode)} (K : List Nat), PruneLoop T leaf cs leaf' rest →
      (K ++ cs.map Prod.fst).Nodup → (∀ c n, (c, n) ∈ cs → n.frequency = (sub c gs).length) →
      leaf = gs.countP (stays (K ++ cs.map Prod.fst)) →
      leaf' = gs.countP (stays (K ++ rest.map Prod.fst)) ∧ leaf ≤ leaf' ∧ leaf' ≤ max T leaf ∧
        (rest.map Prod.fst).Sublist (cs.map Prod.fst) ∧
        ∀ c n', (c, n') ∈ rest → ∃ n, (c, n) ∈ cs ∧ PruneNode T n n' ∧ T < leaf' + n.frequency
  | leaf, [], _, _, K, .nil, hn, hf, hl => ⟨hl, Nat.le_refl _, Nat.le_max_right _ _, List.Sublist.slnil, by simp⟩
  | leaf, (ch, n) :: cs, leaf', rest, K, .merge h1 h2, hn, hf, hl => by
    have hfr := hf ch n (List.mem_cons_self ..)
    simp only [List.map_cons] at hn hl
    have hnc : ch ∉ K ∧ ch ∉ cs.map Prod.fst := by
      rw [List.nodup_append] at hn
      refine ⟨fun h => hn.2.2 ch h ch (List.mem_cons_self ..) rfl, (List.nodup_cons.1 hn.2.1).1⟩
    have hrem := countP_stays_remove (gs := gs) hnc.1 hnc.2
    have hle : gs.countP (stays (K ++ cs.map Prod.fst)) ≤ gs.length := List.countP_le_length
    have hu : u32 (leaf + n.frequency) = gs.countP (stays (K ++ cs.map Prod.fst)) := by
      rw [u32_lt (by omega)]; omega
    have hn' : (K ++ cs.map Prod.fst).Nodup := hn.sublist (List.Sublist.append (List.Sublist.refl _) (List.sublist_cons_self _ _))
    obtain ⟨r1, r2, r3, r4, r5⟩ := pruneLoop_spec hlen K h2 hn' (fun c m h => hf c m (List.mem_cons_of_mem _ h)) hu
    refine ⟨r1, by omega, by omega, ?_, fun c n' h => ?_⟩
    · exact r4.trans (List.sublist_cons_self _ _)
    · obtain ⟨m, hm, hp⟩ := r5 c n' h
      exact ⟨m, List.mem_cons_of_mem _ hm, hp⟩
  | leaf, (ch, n) :: cs, leaf', _, K, .keep (child' := child') (rest := rest) h1 h2 h3, hn, hf, hl => by
    simp only [List.map_cons] at hn hl
    have hfr := hf ch n (List.mem_cons_self ..)
    have hnc : ch ∉ K ∧ ch ∉ cs.map Prod.fst := by
      rw [List.nodup_append] at hn
      refine ⟨fun h => hn.2.2 ch h ch (List.mem_cons_self ..) rfl, (List.nodup_cons.1 hn.2.1).1⟩
    have hrem := countP_stays_remove (gs := gs) hnc.1 hnc.2
    have hle : gs.countP (stays (K ++ cs.map Prod.fst)) ≤ gs.length := List.countP_le_length
    rw [u32_lt (by omega)] at h1
    obtain ⟨r1, r2, r3, r4, r5⟩ := pruneLoop_spec hlen (K ++ [ch]) h3 (by simpa using hn)
      (fun c m h => hf c m (List.mem_cons_of_mem _ h)) (by simpa using hl)
    refine ⟨by simpa using r1, r2, r3, ?_, fun c n' h => ?_⟩
    · exact r4.cons_cons _
    · rcases List.mem_cons.1 h with e | e
      · cases e; exact ⟨n, List.mem_cons_self .., h2, by omega⟩
      · obtain ⟨m, hm, hp⟩ := r5 c n' e
        exact ⟨m, List.mem_cons_of_mem _ hm, hp⟩

theorem pruneNode_freq {T : Nat} {n n' : FNode} (h : PruneNode T n n') : n'.frequency = n.frequency := by
  cases h <;> rfl

/-- Nothing more can be merged. -/
inductive Maximal (T : Nat) : FNode → Prop
  | node {freq marker cs} : (∀ m, marker = some m → ∀ c n, (c, n) ∈ cs → T < m + n.frequency) → (∀ c n, (c, n) ∈ cs → Maximal T n) →
      Maximal T (.mk freq marker cs)

theorem stays_nil (g : List Nat) : stays [] g = true := by
  unfold stays; split <;> simp

theorem prune_spec {mk : List Nat → Bool} {T : Nat} {p gs n} (h : GRep mk p gs n) (hlen : gs.length < 2 ^ 32)
    (hp : mk p = true → p ≠ []) : ∀ {n'}, PruneNode T n n' → GRep mk p gs n' ∧ Maximal T n' := by
  induction h with
  | @node p gs freq marker cs g1 g2 g3 g4 g5 g6 ih =>
    have ih' : ∀ c n, (c, n) ∈ cs → ∀ n', PruneNode T n n' → GRep mk (p ++ [c]) (sub c gs) n' ∧ Maximal T n' :=
      fun c n hm n' hpr => ih c n hm (Nat.lt_of_le_of_lt (length_sub_le c gs) hlen) (by simp) hpr
    intro n' hpr
    generalize hn : FNode.mk freq marker cs = x at hpr
    cases hpr with
    | @unmarked freq' cs' order rest h1 h2 =>
      cases hn
      have hm : mk p = false := by
        by_contra h
        rw [if_pos (by simpa using h)] at g2; cases g2
      obtain ⟨r1, r2⟩ := pruneAll_spec h2
      have hperm : (rest.map Prod.fst).Perm (cs.map Prod.fst) := by rw [r1]; exact h1.map _
      have hb : ∀ c n', (c, n') ∈ rest → GRep mk (p ++ [c]) (sub c gs) n' ∧ Maximal T n' := by
        intro c n' h
        obtain ⟨m, hmm, hpp⟩ := r2 c n' h
        exact ih' c m (h1.mem_iff.1 hmm) n' hpp
      refine ⟨.node g1 (by simp [hm]) (hperm.nodup_iff.2 g3) (fun c h => g4 c (hperm.mem_iff.1 h))
        (fun hm c h => hperm.mem_iff.2 (g5 hm c h)) (fun c n h => (hb c n h).1), .node (by simp) (fun c n h => (hb c n h).2)⟩
    | @small freq' leaf cs' h1 =>
      cases hn
      have hm : mk p = true := by
        by_contra h
        rw [if_neg h] at g2; cases g2
      refine ⟨.node g1 ?_ (by simp) (by simp) (by simp [hm]) (by simp), .node (by simp) (by simp)⟩
      rw [if_pos hm, List.map_nil, g1 (hp hm)]
      congr 1
      exact (List.countP_eq_length.2 fun g _ => stays_nil g).symm
    | @large freq' leaf cs' order leaf' rest h1 h2 h3 h4 =>
      cases hn
      have hm : mk p = true := by
        by_contra h
        rw [if_neg h] at g2; cases g2
      have hperm : (order.map Prod.fst).Perm (cs.map Prod.fst) := h2.map _
      have hst : gs.countP (stays (cs.map Prod.fst)) = gs.countP (stays (order.map Prod.fst)) := by
        congr 1; funext g; unfold stays; split
        · rfl
        · simp only [decide_not]; congr 1; exact decide_eq_decide.2 (hperm.mem_iff.symm)
      rw [if_pos hm, hst] at g2
      obtain ⟨r1, r2, r3, r4, r5⟩ := pruneLoop_spec hlen [] h4 (by simpa using hperm.nodup_iff.2 g3)
        (fun c n h => by
          have := g6 c n (h2.mem_iff.1 h)
          cases this with
          | node k1 => exact k1 (by simp)) (by simpa using g2)
      have hb : ∀ c n', (c, n') ∈ rest → (GRep mk (p ++ [c]) (sub c gs) n' ∧ Maximal T n') ∧ T < leaf' + n'.frequency := by
        intro c n' h
        obtain ⟨m, hmm, hpp, hlt⟩ := r5 c n' h
        exact ⟨ih' c m (h2.mem_iff.1 hmm) n' hpp, by rw [pruneNode_freq hpp]; exact hlt⟩
      refine ⟨.node g1 (by rw [if_pos hm, r1]; rfl) (hperm.nodup_iff.2 g3 |>.sublist r4)
        (fun c h => g4 c (hperm.mem_iff.1 (r4.subset h))) (by simp [hm]) (fun c n h => (hb c n h).1.1),
        .node (fun m e c n h => by cases e; exact (hb c n h).2) (fun c n h => (hb c n h).1.2)⟩

theorem prune_below {mk : List Nat → Bool} {T : Nat} {p gs n} (h : GRep mk p gs n) (hlen : gs.length < 2 ^ 32)
    (hp : mk p = true → p ≠ []) : ∀ {n'}, PruneNode T n n' → ∀ q x', findPath n' q = some x' →
      ∃ x, findPath n q = some x ∧ x'.frequency = x.frequency ∧ x'.marker.isSome = x.marker.isSome ∧
        ∀ m m', x.marker = some m → x'.marker = some m' → m ≤ m' ∧ m' ≤ max T m := by
  induction h with
  | @node p gs freq marker cs g1 g2 g3 g4 g5 g6 ih =>
    have ih' : ∀ c n, (c, n) ∈ cs → ∀ n', PruneNode T n n' → ∀ q x', findPath n' q = some x' →
      ∃ x, findPath n q = some x ∧ x'.frequency = x.frequency ∧ x'.marker.isSome = x.marker.isSome ∧
        ∀ m m', x.marker = some m → x'.marker = some m' → m ≤ m' ∧ m' ≤ max T m :=
      fun c n hm n' hpr => ih c n hm (Nat.lt_of_le_of_lt (length_sub_le c gs) hlen) (by simp) hpr
    -- a child that remains
    have deep : ∀ {freq' marker' rest}, (rest.map Prod.fst).Nodup →
        (∀ c n', (c, n') ∈ rest → ∃ n, (c, n) ∈ cs ∧ PruneNode T n n') → ∀ c q x',
        findPath (.mk freq' marker' rest) (c :: q) = some x' → ∃ x, findPath (.mk freq marker cs) (c :: q) = some x ∧
          x'.frequency = x.frequency ∧ x'.marker.isSome = x.marker.isSome ∧
            ∀ m m', x.marker = some m → x'.marker = some m' → m ≤ m' ∧ m' ≤ max T m := by
      intro freq' marker' rest hnd hr c q x' hf
      simp only [findPath, FNode.children] at hf
      split at hf
      · cases hf
      · rename_i ch' hch'
        obtain ⟨ch, hch, hpr⟩ := hr c ch' (mem_of_child hch')
        obtain ⟨x, hx, hrest⟩ := ih' c ch hch ch' hpr q x' hf
        refine ⟨x, ?_, hrest⟩
        simp only [findPath, FNode.children, child_of_mem g3 hch, hx]
    intro n' hpr q x' hf
    generalize hn : FNode.mk freq marker cs = x at hpr
    cases hpr with
    | @unmarked freq' cs' order rest h1 h2 =>
      cases hn
      obtain ⟨r1, r2⟩ := pruneAll_spec h2
      have hperm : (rest.map Prod.fst).Perm (cs.map Prod.fst) := by rw [r1]; exact h1.map _
      cases q with
      | nil =>
        cases hf
        exact ⟨_, rfl, rfl, rfl, by intro m m' h; cases h⟩
      | cons c q =>
        exact deep (hperm.nodup_iff.2 g3) (fun c n' h => by
          obtain ⟨m, hm, hh⟩ := r2 c n' h; exact ⟨m, h1.mem_iff.1 hm, hh⟩) c q x' hf
    | @small freq' leaf cs' h1 =>
      cases hn
      have hm : mk p = true := by
        by_contra h
        rw [if_neg h] at g2; cases g2
      cases q with
      | nil =>
        cases hf
        refine ⟨_, rfl, rfl, rfl, fun m m' e e' => ?_⟩
        cases e; cases e'
        rw [if_pos hm] at g2
        cases g2
        rw [g1 (hp hm)] at h1 ⊢
        exact ⟨List.countP_le_length, Nat.le_trans h1 (Nat.le_max_left _ _)⟩
      | cons c q => simp [findPath, FNode.children, child] at hf
    | @large freq' leaf cs' order leaf' rest h1 h2 h3 h4 =>
      cases hn
      have hm : mk p = true := by
        by_contra h
        rw [if_neg h] at g2; cases g2
      have hperm : (order.map Prod.fst).Perm (cs.map Prod.fst) := h2.map _
      have hst : gs.countP (stays (cs.map Prod.fst)) = gs.countP (stays (order.map Prod.fst)) := by
        congr 1; funext g; unfold stays; split
        · rfl
        · simp only [decide_not]; congr 1; exact decide_eq_decide.2 (hperm.mem_iff.symm)
      rw [if_pos hm, hst] at g2
      obtain ⟨r1, r2, r3, r4, r5⟩ := pruneLoop_spec hlen [] h4 (by simpa using hperm.nodup_iff.2 g3)
        (fun c n h => by
          have := g6 c n (h2.mem_iff.1 h)
          cases this with
          | node k1 => exact k1 (by simp)) (by simpa using g2)
      cases q with
      | nil =>
        cases hf
        refine ⟨_, rfl, rfl, rfl, fun m m' e e' => ?_⟩
        cases e; cases e'
        exact ⟨r2, r3⟩
      | cons c q =>
        exact deep (hperm.nodup_iff.2 g3 |>.sublist r4) (fun c n' h => by
          obtain ⟨m, hm, hh, _⟩ := r5 c n' h; exact ⟨m, h2.mem_iff.1 hm, hh⟩) c q x' hf

theorem findPath_maximal {T : Nat} : ∀ (q : List Nat) {n x}, Maximal T n → findPath n q = some x → Maximal T x
  | [], n, x, h, hf => by cases hf; exact h
  | c :: q, n, x, h, hf => by
    cases h with
    | node g1 g2 =>
      simp only [findPath, FNode.children] at hf
      split at hf
      · cases hf
      · rename_i ch hch
        exact findPath_maximal q (g2 c ch (mem_of_child hch)) hf

theorem pruneLoop_keeps {T : Nat} : ∀ {leaf : Nat} {cs : List (Nat × FNode)} {leaf' : Nat} {rest : List (Nat × FNode)},
    PruneLoop T leaf cs leaf' rest → (∀ c n, (c, n) ∈ cs → T < leaf + n.frequency ∧ leaf + n.frequency < 2 ^ 32) →
    leaf' = leaf ∧ PruneAll T cs rest
  | _, [], _, _, .nil, _ => ⟨rfl, .nil⟩
  | leaf, (ch, n) :: cs, leaf', rest, .merge h1 h2, hf => by
    have := hf ch n (List.mem_cons_self ..)
    rw [u32_lt this.2] at h1; omega
  | leaf, (ch, n) :: cs, leaf', _, .keep h1 h2 h3, hf => by
    obtain ⟨r1, r2⟩ := pruneLoop_keeps h3 (fun c m h => hf c m (List.mem_cons_of_mem _ h))
    exact ⟨r1, .cons h2 r2⟩

theorem length_sub_add {gs : List (List Nat)} {keys : List Nat} {c : Nat} (h : c ∈ keys) :
    gs.countP (stays keys) + (sub c gs).length ≤ gs.length := by
  rw [length_sub]
  induction gs with
  | nil => simp
  | cons g gs ih =>
    simp only [List.countP_cons, List.length_cons]
    cases g with
    | nil => simp [stays]; omega
    | cons d g =>
      by_cases hd : d = c
      · subst hd; simp [stays, h]; omega
      · by_cases hk : d ∈ keys <;> simp [stays, hd, hk] <;> omega

/-- Pruning a trie in which nothing can be merged any more changes nothing. -/
theorem prune_again {mk : List Nat → Bool} {T : Nat} {p gs n} (h : GRep mk p gs n) (hlen : gs.length < 2 ^ 32)
    (hp : mk p = true → p ≠ []) : Maximal T n → ∀ {n'}, PruneNode T n n' →
      ∀ q, (findPath n' q).map (fun x => (x.frequency, x.marker)) = (findPath n q).map (fun x => (x.frequency, x.marker)) := by
  induction h with
  | @node p gs freq marker cs g1 g2 g3 g4 g5 g6 ih =>
    intro hmax n' hpr
    cases hmax with
    | node m1 m2 =>
    have ih' : ∀ c n, (c, n) ∈ cs → ∀ n', PruneNode T n n' → ∀ q,
        (findPath n' q).map (fun x => (x.frequency, x.marker)) = (findPath n q).map (fun x => (x.frequency, x.marker)) :=
      fun c n hm n' hpr => ih c n hm (Nat.lt_of_le_of_lt (length_sub_le c gs) hlen) (by simp) (m2 c n hm) hpr
    have deep : ∀ {order rest}, order.Perm cs → PruneAll T order rest → ∀ q,
        (findPath (.mk freq marker rest) q).map (fun x => (x.frequency, x.marker)) =
          (findPath (.mk freq marker cs) q).map (fun x => (x.frequency, x.marker)) := by
      intro order rest hperm hall q
      obtain ⟨r1, r2⟩ := pruneAll_spec hall
      have hkeys : (rest.map Prod.fst).Perm (cs.map Prod.fst) := by rw [r1]; exact hperm.map _
      cases q with
      | nil => rfl
      | cons c q =>
        simp only [findPath, FNode.children]
        cases hc : child rest c with
        | none =>
          have : child cs c = none := child_none.2 fun h => child_none.1 hc (hkeys.mem_iff.2 h)
          rw [this]
        | some ch' =>
          obtain ⟨ch, hch, hpr⟩ := r2 c ch' (mem_of_child hc)
          have hch := hperm.mem_iff.1 hch
          rw [child_of_mem g3 hch]
          exact ih' c ch hch ch' hpr q
    intro q
    generalize hn : FNode.mk freq marker cs = x at hpr
    cases hpr with
    | @unmarked freq' cs' order rest h1 h2 => cases hn; exact deep h1 h2 q
    | @small freq' leaf cs' h1 =>
      cases hn
      have hm : mk p = true := by
        by_contra h
        rw [if_neg h] at g2; cases g2
      rw [if_pos hm] at g2
      cases g2
      have hcs : cs = [] := by
        cases cs with
        | nil => rfl
        | cons x cs =>
          obtain ⟨c, n⟩ := x
          have hm1 := m1 _ rfl c n (List.mem_cons_self ..)
          have hfr : n.frequency = (sub c gs).length := by
            have := g6 c n (List.mem_cons_self ..)
            cases this with
            | node k1 => exact k1 (by simp)
          have := length_sub_add (gs := gs) (keys := ((c, n) :: cs).map Prod.fst) (c := c) (by simp)
          rw [g1 (hp hm)] at h1
          omega
      subst hcs
      have : gs.countP (stays (([] : List (Nat × FNode)).map Prod.fst)) = freq := by
        rw [g1 (hp hm)]; exact List.countP_eq_length.2 fun g _ => stays_nil g
      rw [this]
    | @large freq' leaf cs' order leaf' rest h1 h2 h3 h4 =>
      cases hn
      have hm : mk p = true := by
        by_contra h
        rw [if_neg h] at g2; cases g2
      rw [if_pos hm] at g2
      cases g2
      obtain ⟨r1, r2⟩ := pruneLoop_keeps h4 (fun c n h => by
        have hmem := h2.mem_iff.1 h
        have hfr : n.frequency = (sub c gs).length := by
          have := g6 c n hmem
          cases this with
          | node k1 => exact k1 (by simp)
        have := length_sub_add (gs := gs) (keys := cs.map Prod.fst) (c := c) (List.mem_map.2 ⟨_, hmem, rfl⟩)
        exact ⟨m1 _ rfl c n hmem, by omega⟩)
      subst r1
      exact deep h2 r2 q

/-! ### the longest surviving prefix -/

theorem findPath_append (n : FNode) (p q : List Nat) : findPath n (p ++ q) = (findPath n p).bind (fun x => findPath x q) := by
  induction p generalizing n with
  | nil => rfl
  | cons c p ih =>
    simp only [List.cons_append, findPath]
    split
    · rfl
    · exact ih _

theorem stays_iff_longest {root x : FNode} {p : List Nat} (hx : findPath root p = some x) {g : List Nat} (hg : p <+: g) :
    stays (x.children.map Prod.fst) (g.drop p.length) = true ↔
      ∀ q, q <+: g → (∃ y, findPath root q = some y) → q.length ≤ p.length := by
  obtain ⟨r, rfl⟩ := hg
  rw [List.drop_left]
  constructor
  · intro hs q hq ⟨y, hy⟩
    by_contra hlt
    obtain ⟨s, rfl⟩ : p <+: q := List.prefix_of_prefix_length_le ⟨r, rfl⟩ hq (by omega)
    rw [findPath_append, hx] at hy
    have hsr : s <+: r := (List.prefix_append_right_inj p).1 hq
    cases s with
    | nil => simp at hlt
    | cons c s =>
      obtain ⟨u, rfl⟩ := hsr
      simp only [Option.bind_some, findPath] at hy
      split at hy
      · cases hy
      · rename_i ch hch
        have : c ∈ x.children.map Prod.fst := List.mem_map.2 ⟨_, mem_of_child hch, rfl⟩
        simp [stays] at hs
        exact hs ch (mem_of_child hch)
  · intro h
    cases r with
    | nil => rfl
    | cons c r =>
      by_cases hk : c ∈ x.children.map Prod.fst
      · have := h (p ++ [c]) ⟨r, by simp⟩ (by
          cases hc : child x.children c with
          | none => exact absurd hk (child_none.1 hc)
          | some ch => exact ⟨ch, by rw [findPath_append, hx]; simp [findPath, hc]⟩)
        simp at this
        omega
      · simp only [stays, List.head?_cons, decide_eq_true_eq]; exact hk

/-! ### walking -/

theorem walks_spec {mk : List Nat → Bool} : ∀ {key : Bytes} {order : List (Nat × FNode)} {calls : List (Bytes × FNode)},
    WalksList key order calls → ∀ {p : List Nat} {gs : Nat → List (List Nat)}, (order.map Prod.fst).Nodup →
      (∀ c n, (c, n) ∈ order → GRep mk (p ++ [c]) (gs c) n) →
      ∃ paths : List (List Nat × FNode), calls = paths.map (fun x => (key ++ x.1.flatMap encodeRune, x.2)) ∧
        (paths.map Prod.fst).Nodup ∧
        ∀ q x, (q, x) ∈ paths ↔ ∃ c n q', q = c :: q' ∧ (c, n) ∈ order ∧ findPath n q' = some x
  | key, _, _, .nil, p, gs, _, _ => ⟨[], rfl, by simp, by simp⟩
  | key, _, _, .cons (char := ch) (child := n) (order := ord) (a := a) (rest := rest) (b := b) h1 h2 h3, p, gs, hn, hg => by
    have hgn := hg ch n (List.mem_cons_self ..)
    have hnd := List.nodup_cons.1 (show (ch :: rest.map Prod.fst).Nodup from hn)
    cases hgn with
    | @node _ _ freq marker cs g1 g2 g3 g4 g5 g6 =>
    have h1' : ord.Perm cs := h1
    obtain ⟨pa, a1, a2, a3⟩ := walks_spec h2 (p := p ++ [ch]) (gs := fun c => sub c (gs ch))
      ((h1'.map Prod.fst).nodup_iff.2 g3) (fun c m h => g6 c m (h1'.mem_iff.1 h))
    obtain ⟨pb, b1, b2, b3⟩ := walks_spec h3 (p := p) (gs := gs) hnd.2 (fun c m h => hg c m (List.mem_cons_of_mem _ h))
    have hpa : ∀ q x, (q, x) ∈ pa → q ≠ [] := by
      intro q x h; obtain ⟨c, m, q', rfl, _⟩ := (a3 q x).1 h; simp
    refine ⟨([ch], .mk freq marker cs) :: (pa.map (fun x => (ch :: x.1, x.2)) ++ pb), ?_, ?_, ?_⟩
    · simp [a1, b1, Function.comp_def]
    · simp only [List.map_cons, List.map_append, List.map_map]
      have ea : (Prod.fst ∘ fun x : List Nat × FNode => (ch :: x.1, x.2)) = (fun q => ch :: q) ∘ Prod.fst := rfl
      rw [ea, ← List.map_map]
      rw [List.nodup_cons]
      constructor
      · rw [List.mem_append]
        rintro (h | h)
        · obtain ⟨q, hq, e⟩ := List.mem_map.1 h
          obtain ⟨⟨q', x⟩, hx, rfl⟩ := List.mem_map.1 hq
          exact hpa _ _ hx (by simpa using e)
        · obtain ⟨⟨q', x⟩, hx, e⟩ := List.mem_map.1 h
          obtain ⟨c, m, q'', e', hm, _⟩ := (b3 q' x).1 hx
          have e : q' = [ch] := e
          rw [e] at e'
          cases e'
          exact hnd.1 (List.mem_map.2 ⟨_, hm, rfl⟩)
      · rw [List.nodup_append]
        refine ⟨List.Pairwise.map (fun q => ch :: q) (fun a b h e => h (by simpa using e)) a2, b2, ?_⟩
        rintro q hq q' hq' rfl
        obtain ⟨r, hr, rfl⟩ := List.mem_map.1 hq
        obtain ⟨⟨q', x⟩, hx, e⟩ := List.mem_map.1 hq'
        obtain ⟨c, m, q'', e', hm, _⟩ := (b3 q' x).1 hx
        have e : q' = ch :: r := e
        rw [e] at e'
        cases e'
        exact hnd.1 (List.mem_map.2 ⟨_, hm, rfl⟩)
    · intro q x
      simp only [List.mem_cons, List.mem_append, List.mem_map, Prod.mk.injEq]
      constructor
      · rintro (⟨rfl, rfl⟩ | ⟨y, hy, rfl, rfl⟩ | h)
        · exact ⟨ch, _, [], rfl, Or.inl ⟨rfl, rfl⟩, rfl⟩
        · obtain ⟨c, m, q', e, hm, hf⟩ := (a3 y.1 y.2).1 hy
          refine ⟨ch, _, y.1, rfl, Or.inl ⟨rfl, rfl⟩, ?_⟩
          rw [e]
          simp only [findPath, FNode.children, child_of_mem g3 (h1'.mem_iff.1 hm), hf]
        · obtain ⟨c, m, q', e, hm, hf⟩ := (b3 q x).1 h
          exact ⟨c, m, q', e, Or.inr hm, hf⟩
      · rintro ⟨c, m, q', rfl, (⟨rfl, rfl⟩ | hm), hf⟩
        · cases q' with
          | nil => cases hf; exact Or.inl ⟨rfl, rfl⟩
          | cons d q' =>
            simp only [findPath, FNode.children] at hf
            split at hf
            · cases hf
            · rename_i ch' hch'
              exact Or.inr (Or.inl ⟨(d :: q', x), (a3 _ _).2 ⟨d, ch', q', rfl, h1'.mem_iff.2 (mem_of_child hch'), hf⟩, rfl, rfl⟩)
        · exact Or.inr (Or.inr ((b3 _ _).2 ⟨c, m, q', rfl, hm, hf⟩))

/-! ### pruning always has a result -/

theorem prune_exists (T : Nat) : ∀ n : FNode, ∃ n', PruneNode T n n'
  | .mk freq marker cs => by
    have ih : ∀ x ∈ cs, ∃ n', PruneNode T x.2 n' := fun x hx => prune_exists T x.2
    have hall : ∀ l : List (Nat × FNode), (∀ x ∈ l, ∃ n', PruneNode T x.2 n') → ∃ rest, PruneAll T l rest := by
      intro l
      induction l with
      | nil => exact fun _ => ⟨[], .nil⟩
      | cons x l ihl =>
        intro h
        obtain ⟨n', h1⟩ := h x (List.mem_cons_self ..)
        obtain ⟨rest, h2⟩ := ihl fun y hy => h y (List.mem_cons_of_mem _ hy)
        exact ⟨_, .cons h1 h2⟩
    have hloop : ∀ l : List (Nat × FNode), (∀ x ∈ l, ∃ n', PruneNode T x.2 n') → ∀ leaf, ∃ leaf' rest, PruneLoop T leaf l leaf' rest := by
      intro l
      induction l with
      | nil => exact fun _ leaf => ⟨leaf, [], .nil⟩
      | cons x l ihl =>
        intro h leaf
        by_cases hT : u32 (leaf + x.2.frequency) ≤ T
        · obtain ⟨leaf', rest, h2⟩ := ihl (fun y hy => h y (List.mem_cons_of_mem _ hy)) (u32 (leaf + x.2.frequency))
          exact ⟨_, _, .merge hT h2⟩
        · obtain ⟨n', h1⟩ := h x (List.mem_cons_self ..)
          obtain ⟨leaf', rest, h2⟩ := ihl (fun y hy => h y (List.mem_cons_of_mem _ hy)) leaf
          exact ⟨_, _, .keep hT h1 h2⟩
    cases marker with
    | none =>
      obtain ⟨rest, h⟩ := hall cs ih
      exact ⟨_, .unmarked (List.Perm.refl _) h⟩
    | some leaf =>
      by_cases hT : freq ≤ T
      · exact ⟨_, .small hT⟩
      · have hperm := List.mergeSort_perm cs (fun a b => decide (a.2.frequency ≤ b.2.frequency))
        obtain ⟨leaf', rest, h⟩ := hloop (cs.mergeSort fun a b => decide (a.2.frequency ≤ b.2.frequency))
          (fun x hx => ih x (hperm.mem_iff.1 hx)) leaf
        refine ⟨_, .large hT hperm ?_ h⟩
        have := List.pairwise_mergeSort (le := fun a b : Nat × FNode => decide (a.2.frequency ≤ b.2.frequency))
          (by intro a b c; simp; omega) (by intro a b; simp; omega) cs
        exact this.imp (by simp)
termination_by n => sizeOf n
decreasing_by
  have := List.sizeOf_lt_of_mem hx
  have h2 : sizeOf x.2 < sizeOf x := by obtain ⟨a, b⟩ := x; simp; omega
  simp only [FNode.mk.sizeOf_spec]
  omega

end Verif.VGram
