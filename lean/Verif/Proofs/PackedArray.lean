import Verif.Model.NGramVector
import Verif.Proofs.Merger
import Mathlib.Data.List.Basic
/- Proofs about the packed array: lookup equals a map. -/
set_option linter.unusedSectionVars false
namespace Verif

/-! ### packing -/

theorem pack_eq {a b : Nat} (ha : a < 2 ^ 32) (hb : b < 2 ^ 32) : pack a b = a * 2 ^ 32 + b := MergeCandidate.new_eq ha hb

theorem unpackLeft_eq (v : Nat) : unpackLeft v = v / 2 ^ 32 % 2 ^ 32 := by
  unfold unpackLeft; rw [Nat.shiftRight_eq_div_pow]

theorem unpackLeft_pack {a b : Nat} (ha : a < 2 ^ 32) (hb : b < 2 ^ 32) : unpackLeft (pack a b) = a := by
  rw [pack_eq ha hb, unpackLeft_eq]; omega

theorem unpackRight_pack {a b : Nat} (ha : a < 2 ^ 32) (hb : b < 2 ^ 32) : unpackRight (pack a b) = b := by
  rw [pack_eq ha hb, unpackRight]; omega

theorem unpackLeft_lt (v : Nat) : unpackLeft v < 2 ^ 32 := Nat.mod_lt _ (by decide)
theorem unpackRight_lt (v : Nat) : unpackRight v < 2 ^ 32 := Nat.mod_lt _ (by decide)

theorem pack_unpack {v : Nat} (hv : v < 2 ^ 64) : pack (unpackLeft v) (unpackRight v) = v := by
  rw [pack_eq (unpackLeft_lt v) (unpackRight_lt v), unpackLeft_eq, unpackRight]; omega

theorem pack_lt {a b : Nat} : pack a b < 2 ^ 64 := Nat.mod_lt _ (by decide)

theorem pack_inj {a b c d : Nat} (ha : a < 2 ^ 32) (hb : b < 2 ^ 32) (hc : c < 2 ^ 32) (hd : d < 2 ^ 32)
    (h : pack a b = pack c d) : a = c ∧ b = d := by
  rw [pack_eq ha hb, pack_eq hc hd] at h; omega

/-! ### sort.Search -/

theorem sortSearch_found {n x : Nat} {f : Nat → Bool} {key : Nat → Nat} (hf : ∀ i < n, f i = decide (x ≤ key i))
    (hm : ∀ a b, a < b → b < n → key a < key b) {i : Nat} (hi : i < n) (hx : key i = x) : sortSearch n f = i := by
  have hmono : ∀ a b, a ≤ b → b < n → f a = true → f b = true := by
    intro a b hab hb ha
    rw [hf a (by omega)] at ha
    rw [hf b hb]
    simp only [decide_eq_true_eq] at *
    rcases Nat.lt_or_ge a b with h | h
    · have := hm a b h hb; omega
    · have : a = b := by omega
      subst this; exact ha
  have := sortSearchLoop_spec f n hmono 0 n (by omega) (by omega) (by intro a ha; omega) (by intro b h1 h2; omega)
  obtain ⟨h1, h2, h3⟩ := this
  change sortSearch n f ≤ n at h1
  change ∀ a, a < sortSearch n f → _ at h2
  change ∀ b, sortSearch n f ≤ b → _ at h3
  have hfi : f i = true := by rw [hf i hi]; simp [hx]
  rcases Nat.lt_trichotomy (sortSearch n f) i with h | h | h
  · have := h3 _ (Nat.le_refl _) (by omega)
    rw [hf _ (by omega)] at this
    simp only [decide_eq_true_eq] at this
    have := hm _ _ h hi
    omega
  · exact h
  · have := h2 i h
    rw [this] at hfi; cases hfi

/-! ### groups -/

/-- Nodes with the same context: the context and the (word, count) pairs. -/
abbrev Grp := Nat × List (Nat × Nat)

def Grp.vals (g : Grp) : List Nat := g.2.map fun wc => pack wc.1 wc.2
def Grp.nodes (g : Grp) : List NGramNode := g.2.map fun wc => (pack g.1 wc.1, wc.2)

/-- Well-formed groups. -/
structure GoodGrp (g : Grp) : Prop where
  ctx : g.1 < 2 ^ 32
  ne : g.2 ≠ []
  sorted : g.2.Pairwise fun a b => a.1 < b.1
  small : ∀ wc ∈ g.2, wc.1 < 2 ^ 32 ∧ wc.2 < 2 ^ 32

structure GoodGrps (G : List Grp) : Prop where
  each : ∀ g ∈ G, GoodGrp g
  sorted : G.Pairwise fun a b => a.1 < b.1

def grpOffs (G : List Grp) (i : Nat) : Nat := ((G.take i).map fun g => g.2.length).sum
def allVals (G : List Grp) : List Nat := G.flatMap Grp.vals
def allNodes (G : List Grp) : List NGramNode := G.flatMap Grp.nodes

def contOf : Nat → List Grp → List Nat
  | _, [] => []
  | off, g :: G => pack g.1 off :: contOf (off + g.2.length) G

theorem grpOffs_succ {G : List Grp} {i : Nat} {g : Grp} (h : G[i]? = some g) : grpOffs G (i + 1) = grpOffs G i + g.2.length := by
  unfold grpOffs
  rw [List.take_add_one, h]
  simp

theorem contOf_length (off : Nat) (G : List Grp) : (contOf off G).length = G.length := by
  induction G generalizing off with
  | nil => rfl
  | cons g G ih => simp [contOf, ih]

theorem contOf_get (off : Nat) (G : List Grp) {i : Nat} {g : Grp} (h : G[i]? = some g) :
    (contOf off G)[i]? = some (pack g.1 (off + grpOffs G i)) := by
  induction G generalizing off i with
  | nil => cases h
  | cons x G ih =>
    cases i with
    | zero => simp at h; subst h; simp [contOf, grpOffs]
    | succ i =>
      simp only [List.getElem?_cons_succ] at h
      simp only [contOf, List.getElem?_cons_succ]
      rw [ih (off + x.2.length) h]
      simp [grpOffs]; congr 1; omega

theorem allVals_drop {G : List Grp} (i : Nat) : (allVals G).drop (grpOffs G i) = allVals (G.drop i) := by
  induction G generalizing i with
  | nil => simp [allVals]
  | cons g G ih =>
    cases i with
    | zero => simp [grpOffs]
    | succ i =>
      have : grpOffs (g :: G) (i + 1) = g.vals.length + grpOffs G i := by simp [grpOffs, Grp.vals]
      rw [this]
      simp only [allVals, List.flatMap_cons, List.drop_succ_cons]
      rw [List.drop_append, List.drop_of_length_le (by omega), List.nil_append, Nat.add_sub_cancel_left]
      exact ih i

theorem allVals_length (G : List Grp) : (allVals G).length = grpOffs G G.length := by
  unfold allVals grpOffs
  rw [List.take_length, List.length_flatMap]
  congr 1
  apply List.map_congr_left
  intro g _
  simp [Grp.vals]

theorem allNodes_length (G : List Grp) : (allNodes G).length = grpOffs G G.length := by
  unfold allNodes grpOffs
  rw [List.take_length, List.length_flatMap]
  congr 1
  apply List.map_congr_left
  intro g _
  simp [Grp.nodes]

theorem grpOffs_le (G : List Grp) (i : Nat) : grpOffs G i ≤ grpOffs G G.length := by
  rw [← allVals_length]
  by_contra hc
  push Not at hc
  have h := allVals_drop (G := G) i
  by_cases hi : i < G.length
  · have hg : G[i]? = some G[i] := List.getElem?_eq_getElem hi
    have h1 := congrArg List.length h
    rw [List.length_drop] at h1
    have : grpOffs G i + (allVals (G.drop i)).length = (allVals G).length := by
      have e : allVals G = allVals (G.take i) ++ allVals (G.drop i) := by
        unfold allVals; rw [← List.flatMap_append, List.take_append_drop]
      have e2 : (allVals (G.take i)).length = grpOffs G i := by
        rw [allVals_length]; unfold grpOffs; rw [List.take_take, List.length_take, Nat.min_eq_left (Nat.le_of_lt hi), Nat.min_self]
      rw [e, List.length_append, e2]
    omega
  · have : grpOffs G i = grpOffs G G.length := by unfold grpOffs; rw [List.take_of_length_le (by omega), List.take_length]
    rw [this, ← allVals_length] at hc
    omega

theorem get_cases {G : List Grp} {k : Nat} {n : NGramNode} (h : (allNodes G)[k]? = some n) :
    ∃ i j g wc, G[i]? = some g ∧ g.2[j]? = some wc ∧ k = grpOffs G i + j ∧ n = (pack g.1 wc.1, wc.2) := by
  induction G generalizing k with
  | nil => simp [allNodes] at h
  | cons x G ih =>
    simp only [allNodes, List.flatMap_cons] at h
    rw [List.getElem?_append] at h
    split at h
    · unfold Grp.nodes at h
      rw [List.getElem?_map] at h
      obtain ⟨wc, hwc, rfl⟩ := Option.map_eq_some_iff.1 h
      exact ⟨0, k, x, wc, rfl, hwc, by simp [grpOffs], rfl⟩
    · rename_i hge
      obtain ⟨i, j, g, wc, h1, h2, h3, h4⟩ := ih h
      refine ⟨i + 1, j, g, wc, by simpa using h1, h2, ?_, h4⟩
      have e : grpOffs (x :: G) (i + 1) = x.2.length + grpOffs G i := by simp [grpOffs]
      have e2 : x.nodes.length = x.2.length := by simp [Grp.nodes]
      rw [e2] at hge h3
      omega

/-! ### CreatePackedArray -/

theorem createLoop_rest (g : Grp) (hg : g.1 < 2 ^ 32) (l : List (Nat × Nat))
    (hs : ∀ wc ∈ l, wc.1 < 2 ^ 32) (rest : List NGramNode) (pa : PackedArray) (hc : pa.containers.length ≠ 0)
    (bgn : Nat) (hb : bgn + l.length < 2 ^ 32) :
    createLoop (l.map (fun wc => (pack g.1 wc.1, wc.2)) ++ rest) pa g.1 bgn =
      createLoop rest ⟨pa.containers, pa.values ++ l.map (fun wc => pack wc.1 wc.2),
        l.foldl (fun t wc => u32 (t + wc.2)) pa.total⟩ g.1 (bgn + l.length) := by
  induction l generalizing pa bgn with
  | nil => simp
  | cons wc l ih =>
    have h1 := hs wc (by simp)
    simp only [List.map_cons, List.cons_append, createLoop]
    rw [unpackLeft_pack hg h1, unpackRight_pack hg h1]
    simp only [ne_eq, not_true_eq_false, false_or, hc, if_false]
    have hu : u32 (bgn + 1) = bgn + 1 := Nat.mod_eq_of_lt (by simp at hb; omega)
    rw [hu, ih (fun x hx => hs x (by simp [hx])) _ (by exact hc) _ (by simp at hb; omega)]
    simp only [List.length_cons, List.foldl_cons, List.append_assoc, List.singleton_append]
    rw [show bgn + 1 + l.length = bgn + (l.length + 1) by omega]

theorem createLoop_grp (g : Grp) (hg : GoodGrp g) (rest : List NGramNode) (pa : PackedArray) (context bgn : Nat)
    (hc : context ≠ g.1 ∨ pa.containers.length = 0) (hb : bgn + g.2.length < 2 ^ 32) :
    createLoop (g.nodes ++ rest) pa context bgn =
      createLoop rest ⟨pa.containers ++ [pack g.1 bgn], pa.values ++ g.vals,
        g.2.foldl (fun t wc => u32 (t + wc.2)) pa.total⟩ g.1 (bgn + g.2.length) := by
  obtain ⟨ctx, l⟩ := g
  cases l with
  | nil => exact absurd rfl hg.ne
  | cons wc l =>
    have h1 := (hg.small wc (by simp)).1
    have hctx : ctx < 2 ^ 32 := hg.ctx
    simp only [Grp.nodes, Grp.vals, List.map_cons, List.cons_append, createLoop]
    rw [unpackLeft_pack hctx h1, unpackRight_pack hctx h1]
    simp only [show (context ≠ ctx ∨ pa.containers.length = 0) from hc, if_true]
    have hu : u32 (bgn + 1) = bgn + 1 := Nat.mod_eq_of_lt (by simp at hb; omega)
    rw [hu]
    rw [createLoop_rest (ctx, wc :: l) hctx l (fun x hx => (hg.small x (by simp [hx])).1) rest _ (by simp) _
      (by simp at hb; omega)]
    simp only [List.length_cons, List.foldl_cons, List.append_assoc, List.singleton_append]
    rw [show bgn + 1 + l.length = bgn + (l.length + 1) by omega]

/-- The corpus count. -/
def totalOf (t : Nat) (nodes : List NGramNode) : Nat := nodes.foldl (fun t n => u32 (t + n.2)) t

theorem createLoop_eq (G : List Grp) (hG : GoodGrps G) (pa : PackedArray) (context bgn : Nat)
    (hc : ∀ g ∈ G, context ≠ g.1 ∨ pa.containers.length = 0) (hb : bgn + grpOffs G G.length < 2 ^ 32) :
    createLoop (allNodes G) pa context bgn =
      ⟨pa.containers ++ contOf bgn G, pa.values ++ allVals G, totalOf pa.total (allNodes G)⟩ := by
  induction G generalizing pa context bgn with
  | nil => simp [allNodes, createLoop, contOf, allVals, totalOf]
  | cons g G ih =>
    have hoff : grpOffs (g :: G) (g :: G).length = g.2.length + grpOffs G G.length := by simp [grpOffs]
    rw [hoff] at hb
    simp only [allNodes, List.flatMap_cons]
    rw [createLoop_grp g (hG.each g (by simp)) _ _ _ _ (hc g (by simp)) (by omega)]
    have hsorted := List.pairwise_cons.1 hG.sorted
    rw [show G.flatMap Grp.nodes = allNodes G from rfl]
    rw [ih ⟨fun x hx => hG.each x (by simp [hx]), hsorted.2⟩ _ _ _
      (fun x hx => .inl (by have := hsorted.1 x hx; omega)) (by omega)]
    simp only [contOf, allVals, List.flatMap_cons, List.append_assoc, List.singleton_append, totalOf, List.foldl_append,
      Grp.nodes, List.foldl_map]

/-! ### lookup -/

theorem getD_of {l : List Nat} {i x : Nat} (h : l[i]? = some x) : l.getD i 0 = x := by
  simp [List.getD_eq_getElem?_getD, h]

section
variable {G : List Grp} (hG : GoodGrps G) {total : Nat} (hb : grpOffs G G.length ≤ invalidContext)
include hG hb

theorem grp_lt {i j : Nat} {a b : Grp} (hij : i < j) (ha : G[i]? = some a) (hb : G[j]? = some b) : a.1 < b.1 := by
  have hj : j < G.length := by by_contra hc; rw [List.getElem?_eq_none (by omega)] at hb; cases hb
  have := List.pairwise_iff_getElem.1 hG.sorted i j (by omega) hj hij
  rw [List.getElem?_eq_getElem (by omega)] at ha hb
  injection ha with ha; injection hb with hb
  rwa [ha, hb] at this

theorem grpOffs_lt32 (i : Nat) : grpOffs G i < 2 ^ 32 := by
  have := grpOffs_le G i
  have : invalidContext = 4294967293 := by decide
  omega

theorem cont_getD {i : Nat} {g : Grp} (h : G[i]? = some g) : (contOf 0 G).getD i 0 = pack g.1 (grpOffs G i) := by
  apply getD_of
  rw [contOf_get 0 G h]; simp

theorem cont_left {i : Nat} {g : Grp} (h : G[i]? = some g) : unpackLeft ((contOf 0 G).getD i 0) = g.1 := by
  rw [cont_getD hG hb h, unpackLeft_pack (hG.each g (List.mem_of_getElem? h)).ctx (grpOffs_lt32 hG hb i)]

theorem cont_right {i : Nat} {g : Grp} (h : G[i]? = some g) : unpackRight ((contOf 0 G).getD i 0) = grpOffs G i := by
  rw [cont_getD hG hb h, unpackRight_pack (hG.each g (List.mem_of_getElem? h)).ctx (grpOffs_lt32 hG hb i)]

theorem containerPos_some {i : Nat} {g : Grp} (h : G[i]? = some g) :
    PackedArray.findContainerPos ⟨contOf 0 G, allVals G, total⟩ g.1 = some i := by
  have hi : i < G.length := by by_contra hc; rw [List.getElem?_eq_none (by omega)] at h; cases h
  have get : ∀ k (hk : k < G.length), G[k]? = some G[k] := fun k hk => List.getElem?_eq_getElem hk
  have mono : ∀ a b, a < b → b < G.length →
      unpackLeft ((contOf 0 G).getD a 0) < unpackLeft ((contOf 0 G).getD b 0) := by
    intro a b hab hbl
    rw [cont_left hG hb (get a (by omega)), cont_left hG hb (get b hbl)]
    exact grp_lt hG hb hab (get a (by omega)) (get b hbl)
  have hkey := cont_left hG hb h
  have h0 : unpackLeft ((contOf 0 G).getD 0 0) ≤ g.1 := by
    rcases Nat.eq_zero_or_pos i with h' | h'
    · subst h'; omega
    · have := mono 0 i h' hi; omega
  have hlast : g.1 ≤ unpackLeft ((contOf 0 G).getD (G.length - 1) 0) := by
    rcases Nat.lt_or_ge i (G.length - 1) with h' | h'
    · have := mono i (G.length - 1) h' (by omega); omega
    · rw [show G.length - 1 = i by omega]; omega
  have hgctx := (hG.each g (List.mem_of_getElem? h)).ctx
  have hsearch : sortSearch G.length (fun i => decide ((contOf 0 G).getD i 0 ≥ pack g.1 0)) = i := by
    refine sortSearch_found (key := fun k => unpackLeft ((contOf 0 G).getD k 0)) (x := g.1) ?_ mono hi hkey
    intro k hk
    rw [decide_eq_decide]
    have hkg := hG.each _ (List.mem_of_getElem? (get k hk))
    rw [cont_left hG hb (get k hk), cont_getD hG hb (get k hk), pack_eq hkg.ctx (grpOffs_lt32 hG hb k),
      pack_eq hgctx (by decide)]
    have := grpOffs_lt32 hG hb k
    omega
  unfold PackedArray.findContainerPos
  simp only [contOf_length]
  rw [if_neg (by omega)]
  rw [hsearch, if_neg (by omega)]

theorem containerPos_none {ctx : Nat} (h : ∀ g ∈ G, g.1 ≠ ctx) :
    PackedArray.findContainerPos ⟨contOf 0 G, allVals G, total⟩ ctx = none := by
  unfold PackedArray.findContainerPos
  simp only [contOf_length]
  split
  · rfl
  · split
    · rfl
    · rename_i hc
      push Not at hc
      have hg := List.getElem?_eq_getElem hc.1
      rw [cont_left hG hb hg] at hc
      exact absurd hc.2 (h _ (List.mem_of_getElem? hg))

theorem valuesOf_eq {i : Nat} {g : Grp} (h : G[i]? = some g) :
    PackedArray.valuesOf ⟨contOf 0 G, allVals G, total⟩ i = .ok g.vals := by
  have hi : i < G.length := by by_contra hc; rw [List.getElem?_eq_none (by omega)] at h; cases h
  have hdrop : (allVals G).drop (grpOffs G i) = g.vals ++ allVals (G.drop (i + 1)) := by
    rw [allVals_drop, List.drop_eq_getElem_cons hi]
    rw [List.getElem?_eq_getElem hi] at h
    injection h with h
    rw [h]
    simp [allVals]
  have hlen := allVals_length G
  have hle := grpOffs_le G i
  unfold PackedArray.valuesOf
  simp only [contOf_length]
  rw [cont_right hG hb h]
  split
  · rename_i hlast
    rw [if_pos (by omega), hdrop]
    rw [show i + 1 = G.length by omega, List.drop_length]
    simp [allVals]
  · rename_i hnl
    have hg' := List.getElem?_eq_getElem (l := G) (i := i + 1) (by omega)
    have hle' := grpOffs_le G (i + 1)
    have hsucc := grpOffs_succ h
    rw [cont_right hG hb hg', if_pos (by omega), hdrop, hsucc]
    congr 1
    rw [List.take_append_of_le_length (by simp [Grp.vals]), List.take_of_length_le (by simp [Grp.vals])]

omit hG hb in
theorem vals_get {g : Grp} {j : Nat} {wc : Nat × Nat} (h : g.2[j]? = some wc) : g.vals[j]? = some (pack wc.1 wc.2) := by
  unfold Grp.vals; rw [List.getElem?_map, h]; rfl

/-- The lookup inside one group, as in `find`. -/
def findInGroup (values : List Nat) (base word : Nat) : Except Err (Nat × Nat) :=
  if values.length = 0 then .error .panicIndex
  else if unpackLeft (values.getD 0 0) > word ∨ unpackLeft (values.getD (values.length - 1) 0) < word then
    .ok (0, invalidContext)
  else
    let target := pack word 0
    let j := sortSearch values.length fun i => decide (values.getD i 0 ≥ target)
    if j ≥ values.length ∨ unpackLeft (values.getD j 0) ≠ word then .ok (0, invalidContext)
    else .ok (values.getD j 0, u32 (base + j))

omit hG hb in
theorem findInGroup_some {g : Grp} (hg : GoodGrp g) {j : Nat} {wc : Nat × Nat} (h : g.2[j]? = some wc) (base : Nat) :
    findInGroup g.vals base wc.1 = .ok (pack wc.1 wc.2, u32 (base + j)) := by
  have hlen : g.vals.length = g.2.length := by simp [Grp.vals]
  have hj : j < g.2.length := by by_contra hc; rw [List.getElem?_eq_none (by omega)] at h; cases h
  have get : ∀ k (hk : k < g.2.length), g.2[k]? = some g.2[k] := fun k hk => List.getElem?_eq_getElem hk
  have left : ∀ k w, g.2[k]? = some w → unpackLeft (g.vals.getD k 0) = w.1 := by
    intro k w hk
    have := hg.small w (List.mem_of_getElem? hk)
    rw [getD_of (vals_get hk), unpackLeft_pack this.1 this.2]
  have mono : ∀ a b, a < b → b < g.2.length → unpackLeft (g.vals.getD a 0) < unpackLeft (g.vals.getD b 0) := by
    intro a b hab hbl
    rw [left a _ (get a (by omega)), left b _ (get b hbl)]
    exact List.pairwise_iff_getElem.1 hg.sorted a b (by omega) hbl hab
  have hkey := left j wc h
  have h0 : unpackLeft (g.vals.getD 0 0) ≤ wc.1 := by
    rcases Nat.eq_zero_or_pos j with h' | h'
    · subst h'; omega
    · have := mono 0 j h' hj; omega
  have hlast : wc.1 ≤ unpackLeft (g.vals.getD (g.2.length - 1) 0) := by
    rcases Nat.lt_or_ge j (g.2.length - 1) with h' | h'
    · have := mono j (g.2.length - 1) h' (by omega); omega
    · rw [show g.2.length - 1 = j by omega]; omega
  have hw := hg.small wc (List.mem_of_getElem? h)
  have hsearch : sortSearch g.2.length (fun i => decide (g.vals.getD i 0 ≥ pack wc.1 0)) = j := by
    refine sortSearch_found (key := fun k => unpackLeft (g.vals.getD k 0)) (x := wc.1) ?_ mono hj hkey
    intro k hk
    rw [decide_eq_decide]
    have hkg := hg.small _ (List.mem_of_getElem? (get k hk))
    rw [left k _ (get k hk), getD_of (vals_get (get k hk)), pack_eq hkg.1 hkg.2, pack_eq hw.1 (by decide)]
    omega
  unfold findInGroup
  simp only [hlen]
  rw [if_neg (by omega), if_neg (by omega), hsearch, if_neg (by omega), getD_of (vals_get h)]

omit hG hb in
theorem findInGroup_none {g : Grp} (hg : GoodGrp g) {word : Nat} (h : ∀ wc ∈ g.2, wc.1 ≠ word) (base : Nat) :
    findInGroup g.vals base word = .ok (0, invalidContext) := by
  have hlen : g.vals.length = g.2.length := by simp [Grp.vals]
  unfold findInGroup
  simp only [hlen]
  rw [if_neg (by have := List.length_pos_iff.2 hg.ne; omega)]
  split
  · rfl
  · split
    · rfl
    · rename_i hc
      push Not at hc
      have hg' := List.getElem?_eq_getElem hc.1
      have hs := hg.small _ (List.mem_of_getElem? hg')
      rw [getD_of (vals_get hg'), unpackLeft_pack hs.1 hs.2] at hc
      exact absurd hc.2 (h _ (List.mem_of_getElem? hg'))

theorem find_grp {i : Nat} {g : Grp} (h : G[i]? = some g) (word : Nat) :
    PackedArray.find ⟨contOf 0 G, allVals G, total⟩ word g.1 = findInGroup g.vals (grpOffs G i) word := by
  unfold PackedArray.find
  rw [containerPos_some hG hb h]
  simp only
  rw [valuesOf_eq hG hb h]
  simp only [cont_right hG hb h]
  rfl

theorem getCount_at {k w ctx c : Nat} (hw : w < 2 ^ 32) (hctx : ctx < 2 ^ 32) (h : (allNodes G)[k]? = some (pack ctx w, c)) :
    PackedArray.getCount ⟨contOf 0 G, allVals G, total⟩ w ctx = .ok (c, k) := by
  have hkl : k < grpOffs G G.length := by
    rw [← allNodes_length]
    by_contra hc; rw [List.getElem?_eq_none (by omega)] at h; cases h
  obtain ⟨i, j, g, wc, h1, h2, h3, h4⟩ := get_cases h
  have hg := hG.each g (List.mem_of_getElem? h1)
  have hwc := hg.small wc (List.mem_of_getElem? h2)
  injection h4 with h4 h5
  obtain ⟨e1, e2⟩ := pack_inj hctx hw hg.ctx hwc.1 h4
  subst e1 e2 h5
  unfold PackedArray.getCount
  rw [find_grp hG hb h1, findInGroup_some hg h2]
  have hu : u32 (grpOffs G i + j) = k := by
    rw [← h3]; apply Nat.mod_eq_of_lt
    have : invalidContext = 4294967293 := by decide
    omega
  simp only [hu]
  rw [if_neg (by omega), unpackRight_pack hwc.1 hwc.2]

theorem getCount_absent {w ctx : Nat} (h : ∀ n ∈ allNodes G, n.1 ≠ pack ctx w) :
    PackedArray.getCount ⟨contOf 0 G, allVals G, total⟩ w ctx = .ok (0, invalidContext) := by
  by_cases hctx : ∃ g ∈ G, g.1 = ctx
  · obtain ⟨g, hg, rfl⟩ := hctx
    obtain ⟨i, hi⟩ := List.getElem?_of_mem hg
    unfold PackedArray.getCount
    rw [find_grp hG hb hi, findInGroup_none (hG.each g hg)]
    · simp
    · intro wc hwc he
      subst he
      apply h (pack g.1 wc.1, wc.2)
      · exact List.mem_flatMap.2 ⟨g, hg, List.mem_map.2 ⟨wc, hwc, rfl⟩⟩
      · rfl
  · push Not at hctx
    unfold PackedArray.getCount PackedArray.find
    rw [containerPos_none hG hb hctx]
    simp

theorem subVector_some {i : Nat} {g : Grp} (h : G[i]? = some g) :
    ∃ sub, PackedArray.subVector ⟨contOf 0 G, allVals G, total⟩ g.1 = some sub ∧
      ∀ w, sub.getCount w g.1 = PackedArray.getCount ⟨contOf 0 G, allVals G, total⟩ w g.1 := by
  unfold PackedArray.subVector
  rw [containerPos_some hG hb h]
  refine ⟨_, rfl, ?_⟩
  intro w
  have hi : i < G.length := by by_contra hc; rw [List.getElem?_eq_none (by omega)] at h; cases h
  have hgctx := (hG.each g (List.mem_of_getElem? h)).ctx
  have hv := valuesOf_eq (total := total) hG hb h
  have hpos : ∀ (tail : List Nat), (∀ x ∈ tail, g.1 < unpackLeft x ∧ pack g.1 0 ≤ x) → tail.length ≤ 1 →
      PackedArray.findContainerPos ⟨(contOf 0 G).getD i 0 :: tail, allVals G, total⟩ g.1 = some 0 := by
    intro tail ht hl
    unfold PackedArray.findContainerPos
    have hleft := cont_left hG hb h
    have hge : pack g.1 0 ≤ (contOf 0 G).getD i 0 := by
      rw [cont_getD hG hb h, pack_eq hgctx (by decide), pack_eq hgctx (grpOffs_lt32 hG hb i)]; omega
    cases tail with
    | nil =>
      simp only [List.length_cons, List.length_nil, List.getD_cons_zero, hleft, Nat.zero_add, Nat.sub_self]
      rw [if_neg (by omega)]
      have : sortSearch 1 (fun i_1 => decide ([(contOf 0 G).getD i 0].getD i_1 0 ≥ pack g.1 0)) = 0 := by
        refine sortSearch_found (key := fun _ => g.1) (x := g.1) ?_ (by intro a b _ _; omega) (by omega) rfl
        intro k hk
        have : k = 0 := by omega
        subst this
        simpa using hge
      simp only [Nat.zero_add, this, List.getD_cons_zero, hleft]
      rw [if_neg (by omega)]
    | cons x tail =>
      have : tail = [] := by simpa using hl
      subst this
      obtain ⟨h1, h2⟩ := ht x (by simp)
      simp only [List.length_cons, List.length_nil, List.getD_cons_zero, hleft]
      rw [if_neg (by simp; omega)]
      have : sortSearch 2 (fun i_1 => decide ([(contOf 0 G).getD i 0, x].getD i_1 0 ≥ pack g.1 0)) = 0 := by
        refine sortSearch_found (key := fun k => if k = 0 then g.1 else g.1 + 1) (x := g.1) ?_ ?_ (by omega) rfl
        · intro k hk
          rcases (by omega : k = 0 ∨ k = 1) with rfl | rfl
          · simpa using hge
          · simpa using h2
        · intro a b hab hb2
          have : a = 0 ∧ b = 1 := by omega
          simp [this.1, this.2]
      simp only [Nat.zero_add, this, List.getD_cons_zero, hleft]
      rw [if_neg (by omega)]
  have key : ∀ (tail : List Nat), (∀ x ∈ tail, g.1 < unpackLeft x ∧ pack g.1 0 ≤ x) → tail.length ≤ 1 →
      PackedArray.valuesOf ⟨(contOf 0 G).getD i 0 :: tail, allVals G, total⟩ 0 = .ok g.vals →
      PackedArray.getCount ⟨(contOf 0 G).getD i 0 :: tail, allVals G, total⟩ w g.1 =
        PackedArray.getCount ⟨contOf 0 G, allVals G, total⟩ w g.1 := by
    intro tail h1 h2 h3
    have : PackedArray.find ⟨(contOf 0 G).getD i 0 :: tail, allVals G, total⟩ w g.1 =
        PackedArray.find ⟨contOf 0 G, allVals G, total⟩ w g.1 := by
      rw [find_grp hG hb h]
      unfold PackedArray.find
      rw [hpos tail h1 h2]
      simp only [h3, List.getD_cons_zero, cont_right hG hb h]
      rfl
    unfold PackedArray.getCount
    rw [this]
  simp only [contOf_length]
  unfold PackedArray.valuesOf at hv
  simp only [contOf_length] at hv
  split
  · rename_i hlt
    have hg' := List.getElem?_eq_getElem (l := G) (i := i + 1) (by omega)
    have hlt' := grp_lt hG hb (show i < i + 1 by omega) h hg'
    apply key
    · intro x hx
      simp at hx
      subst hx
      have : (contOf 0 G)[i + 1]?.getD 0 = (contOf 0 G).getD (i + 1) 0 := by rw [List.getD_eq_getElem?_getD]
      rw [this]
      refine ⟨by rw [cont_left hG hb hg']; exact hlt', ?_⟩
      have hc' := (hG.each _ (List.mem_of_getElem? hg')).ctx
      rw [cont_getD hG hb hg', pack_eq hgctx (by decide), pack_eq hc' (grpOffs_lt32 hG hb (i + 1))]
      omega
    · simp
    · rw [if_neg (by omega)] at hv
      unfold PackedArray.valuesOf
      simpa using hv
  · rename_i hge
    apply key
    · simp
    · simp
    · rw [if_pos (by omega)] at hv
      unfold PackedArray.valuesOf
      simpa using hv

theorem subVector_none {ctx : Nat} (h : ∀ g ∈ G, g.1 ≠ ctx) :
    PackedArray.subVector ⟨contOf 0 G, allVals G, total⟩ ctx = none := by
  unfold PackedArray.subVector
  rw [containerPos_none hG hb h]

end
end Verif
