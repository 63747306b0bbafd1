import Verif.Model.NGramFiles
import Verif.Spec.NGramFiles
import Verif.Proofs.Scanner
import Verif.Props.LMStore
import Verif.Props.CountTrie
namespace Verif.NFiles
open Verif Verif.Scan Verif.Props Verif.Spec

theorem mem_join {x : UInt8} {ls : List Bytes} (h : x ∈ [32].intercalate ls) : x = 32 ∨ ∃ l ∈ ls, x ∈ l := by
  induction ls with
  | nil => simp at h
  | cons a ls ih =>
    cases ls with
    | nil => right; exact ⟨a, by simp, by simpa using h⟩
    | cons b ls =>
      simp only [List.intercalate_cons_cons, List.append_assoc, List.mem_append, List.mem_singleton] at h
      rcases h with h | h | h
      · exact .inr ⟨a, by simp, h⟩
      · exact .inl h
      · rcases ih h with h | ⟨l, hl, hx⟩
        · exact .inl h
        · exact .inr ⟨l, List.mem_cons_of_mem _ hl, hx⟩

theorem join_plain {g : List Bytes} (hg : ∀ w ∈ g, PlainWord w) : 9 ∉ [32].intercalate g ∧ 10 ∉ [32].intercalate g := by
  constructor
  · intro h
    rcases mem_join h with h | ⟨l, hl, hx⟩
    · simp at h
    · exact (hg l hl).2.1 hx
  · intro h
    rcases mem_join h with h | ⟨l, hl, hx⟩
    · simp at h
    · exact (hg l hl).2.2 hx

theorem tabIndex_eq {a b : Bytes} (h : 9 ∉ a) : tabIndex (a ++ 9 :: b) = some a.length := by
  unfold tabIndex
  induction a with
  | nil => simp [List.findIdx?_cons]
  | cons x a ih =>
    simp only [List.mem_cons, not_or] at h
    rw [List.cons_append, List.findIdx?_cons]
    have : (x == 9) = false := by simpa using fun e => h.1 e.symm
    rw [this, ih h.2]
    simp

theorem parseDigits_ok (l : Bytes) : ∀ acc, (∀ c ∈ l, IsDigit c) → decValue l acc < 2 ^ 32 →
    parseDigits l acc = .ok (decValue l acc) := by
  induction l with
  | nil => intro acc _ _; rfl
  | cons c l ih =>
    intro acc hd hlt
    have hm := decValue_mono l (10 * acc + (c.toNat - 48))
    have hlt' : decValue l (10 * acc + (c.toNat - 48)) < 2 ^ 32 := hlt
    rw [parseDigits, if_pos (show 48 ≤ c.toNat ∧ c.toNat ≤ 57 from hd c (by simp)), if_pos (by omega),
      ih _ (fun x hx => hd x (by simp [hx])) hlt']
    rfl

theorem parseUint32_decimal {n : Nat} (h : n < 2 ^ 32) : parseUint32 (decimal n) = .ok n := by
  obtain ⟨h1, h2, h3⟩ := decimal_spec n
  unfold parseUint32
  rw [if_neg h3, parseDigits_ok _ _ h1 (by rw [h2]; exact h), h2]

/-- A line as the reader sees it. -/
def lineText (g : List Bytes) (c : Nat) : Bytes := [32].intercalate g ++ 9 :: decimal c

theorem nGramLine_eq (g : List Bytes) (c : Nat) : nGramLine g c = lineText g c ++ [10] := by
  simp [nGramLine, lineText]

theorem decimal_no {x : UInt8} (hx : ¬ IsDigit x) (n : Nat) : x ∉ decimal n :=
  fun h => hx ((decimal_spec n).1 x h)

theorem lineText_newline {g : List Bytes} (hg : ∀ w ∈ g, PlainWord w) (c : Nat) : 10 ∉ lineText g c := by
  unfold lineText
  simp only [List.mem_append, List.mem_cons, not_or]
  exact ⟨(join_plain hg).2, by decide, decimal_no (by unfold IsDigit; decide) c⟩

theorem lineText_chomp (g : List Bytes) (c : Nat) : Spec.chomp (lineText g c) = lineText g c := by
  unfold Spec.chomp
  obtain ⟨h1, -, h3⟩ := decimal_spec c
  rw [if_neg]
  unfold lineText
  have e : [32].intercalate g ++ 9 :: decimal c = ([32].intercalate g ++ [9]) ++ decimal c := by simp
  rw [e, List.getLast?_append_of_ne_nil _ h3]
  intro h
  have := h1 13 (List.mem_of_getLast? h)
  unfold IsDigit at this
  simp at this

theorem mapWords_ok {get : Bytes → Except Err Nat} {id : Bytes → Nat} :
    ∀ {g : List Bytes}, (∀ w ∈ g, get w = .ok (id w)) → mapWords get g = .ok (g.map id)
  | [], _ => rfl
  | w :: g, h => by
    rw [mapWords, h w (by simp), mapWords_ok fun v hv => h v (by simp [hv])]
    rfl

theorem parse_line {get : Bytes → Except Err Nat} {id : Bytes → Nat} {g : List Bytes} {c : Nat} (hne : g ≠ [])
    (hg : ∀ w ∈ g, PlainWord w) (hget : ∀ w ∈ g, get w = .ok (id w)) (hc : c < 2 ^ 32) :
    parseNGramLine get (lineText g c) = .ok (g.map id, c) := by
  unfold parseNGramLine lineText
  rw [tabIndex_eq (join_plain hg).1]
  simp only [List.take_left]
  rw [List.splitOn_intercalate 32 (fun l hl => (hg l hl).1) hne, mapWords_ok hget]
  have : ([32].intercalate g ++ 9 :: decimal c).drop (([32].intercalate g).length + 1) = decimal c := by
    rw [show [32].intercalate g ++ 9 :: decimal c = ([32].intercalate g ++ [9]) ++ decimal c by simp]
    rw [List.drop_left' (by simp)]
  simp only [this, parseUint32_decimal hc]

/-! ### writing -/

/-- The entries of the file of order `k + 1`. -/
def fileOf (calls : List (List Bytes × Nat)) (k : Nat) : List (List Bytes × Nat) :=
  calls.filter fun e => decide (e.1.length = k + 1)

/-- The text of a file with these entries. -/
def fileText (entries : List (List Bytes × Nat)) : Bytes := entries.flatMap fun e => nGramLine e.1 e.2

theorem write_fold (order : Nat) : ∀ (calls pre : List (List Bytes × Nat)), (∀ e ∈ calls, e.1.length ≤ order) →
    foldE (fun s pc => writerPut s pc.1 pc.2) ((List.range order).map fun k => fileText (fileOf pre k)) calls =
      .ok ((List.range order).map fun k => fileText (fileOf (pre ++ calls) k)) := by
  intro calls
  induction calls with
  | nil => intro pre _; simp [foldE]
  | cons e calls ih =>
    intro pre h
    have he := h e (by simp)
    have hstep : writerPut ((List.range order).map fun k => fileText (fileOf pre k)) e.1 e.2 =
        .ok ((List.range order).map fun k => fileText (fileOf (pre ++ [e]) k)) := by
      unfold writerPut
      by_cases h0 : e.1.length = 0
      · rw [if_pos h0]
        congr 2
        funext k
        simp [fileOf, h0]
      · rw [if_neg h0]
        have hlt : e.1.length - 1 < order := by omega
        rw [List.getElem?_map, List.getElem?_range hlt]
        simp only [Option.map_some]
        congr 1
        apply List.ext_getElem (by simp)
        intro i h1 h2
        simp only [List.getElem_set, List.getElem_map, List.getElem_range]
        by_cases hi : e.1.length - 1 = i
        · subst hi
          rw [if_pos rfl]
          have : e.1.length = e.1.length - 1 + 1 := by omega
          unfold fileOf fileText
          rw [List.filter_append, List.flatMap_append]
          congr 1
          rw [List.filter_cons_of_pos (by simp only [decide_eq_true_eq]; omega)]
          simp
        · rw [if_neg hi]
          unfold fileOf
          rw [List.filter_append, List.filter_cons_of_neg (by simp only [decide_eq_true_eq]; omega)]
          simp
    rw [foldE, hstep]
    simp only
    rw [ih (pre ++ [e]) fun x hx => h x (by simp [hx])]
    simp

/-- The files `Write` creates. -/
theorem write_ok {order : Nat} {t : CountTrie} {ord : List Bytes → List (Nat × CTNode) → List (Nat × CTNode)}
    {calls : List (List Bytes × Nat)}
    (hw : ∀ (σ : Type) (walker : σ → List Bytes → Nat → Except Err σ) (s : σ),
      t.walk ord walker s = foldE (fun s pc => walker s pc.1 pc.2) s calls)
    (hlen : ∀ e ∈ calls, e.1.length ≤ order) :
    nGramWrite order t ord = .ok ((List.range order).map fun k => fileText (fileOf calls k)) := by
  unfold nGramWrite
  rw [hw]
  have := write_fold order calls [] hlen
  simp only [List.nil_append] at this
  rw [← this]
  congr 1
  apply List.ext_getElem (by simp)
  intro i h1 h2
  simp [fileOf, fileText]

/-! ### reading -/

theorem lines_file : ∀ (entries : List (List Bytes × Nat)), (∀ e ∈ entries, ∀ w ∈ e.1, PlainWord w) →
    Spec.lines (fileText entries) = entries.map fun e => lineText e.1 e.2
  | [], _ => by simp [fileText, lines_nil]
  | e :: entries, h => by
    unfold fileText
    rw [List.flatMap_cons, nGramLine_eq, List.append_assoc, List.singleton_append,
      lines_cons (lineText_newline (h e (by simp)) _), lineText_chomp]
    have := lines_file entries fun x hx => h x (by simp [hx])
    unfold fileText at this
    rw [this]
    rfl

theorem short_file : ∀ (entries : List (List Bytes × Nat)), (∀ e ∈ entries, ∀ w ∈ e.1, PlainWord w) →
    (∀ e ∈ entries, (lineText e.1 e.2).length < maxTokenSize) → ShortLines (fileText entries)
  | [], _, _ => by simp [fileText, ShortLines, maxTokenSize]
  | e :: entries, h, hl => by
    unfold fileText
    rw [List.flatMap_cons, nGramLine_eq, List.append_assoc, List.singleton_append,
      shortLines_cons (lineText_newline (h e (by simp)) _)]
    exact ⟨hl e (by simp), short_file entries (fun x hx => h x (by simp [hx])) fun x hx => hl x (by simp [hx])⟩

theorem read_lines {get : Bytes → Except Err Nat} {id : Bytes → Nat} {parents : List PackedArray} :
    ∀ (entries : List (List Bytes × Nat)) (tree : List NGramNode), (∀ e ∈ entries, e.1 ≠ [] ∧ e.2 < 2 ^ 32) →
    (∀ e ∈ entries, ∀ w ∈ e.1, PlainWord w ∧ get w = .ok (id w)) →
    readNGramLines get parents tree (entries.map fun e => lineText e.1 e.2) =
      builderPuts parents tree (entries.map fun e => (e.1.map id, e.2))
  | [], tree, _, _ => rfl
  | e :: entries, tree, h, h' => by
    have := parse_line (get := get) (id := id) (h e (by simp)).1 (fun w hw => (h' e (by simp) w hw).1)
      (fun w hw => (h' e (by simp) w hw).2) (h e (by simp)).2
    unfold readNGramLines
    rw [List.map_cons, foldE, this]
    simp only [List.map_cons, builderPuts]
    cases hb : builderPut parents tree (e.1.map id) e.2 with
    | error err => rfl
    | ok tree' =>
      simp only
      exact read_lines entries tree' (fun x hx => h x (by simp [hx])) fun x hx => h' x (by simp [hx])

theorem delivers_lines {r : Reader} {text : Bytes} (h : Delivers r text) (hs : ShortLines text) :
    ∃ n, ∀ fuel, n ≤ fuel → (newScanner r).all scanLines fuel = some (Spec.lines text, none) := by
  obtain ⟨n, hn⟩ := yields_new scanLines_ok scanLines_fits h.chunks (by rw [h.text]; exact hs)
  refine ⟨n, fun fuel hf => ?_⟩
  rw [hn fuel hf, h.text, h.eof]
  rfl

/-- What the entries of the files have to satisfy to be read back. -/
structure GoodEntries (get : Bytes → Except Err Nat) (id : Bytes → Nat) (entries : List (List Bytes × Nat)) : Prop where
  words : ∀ e ∈ entries, ∀ w ∈ e.1, PlainWord w ∧ get w = .ok (id w)
  counts : ∀ e ∈ entries, e.2 < 2 ^ 32
  short : ∀ e ∈ entries, (lineText e.1 e.2).length < maxTokenSize

theorem GoodEntries.filter {get : Bytes → Except Err Nat} {id : Bytes → Nat} {entries : List (List Bytes × Nat)}
    (h : GoodEntries get id entries) (p : List Bytes × Nat → Bool) : GoodEntries get id (entries.filter p) :=
  ⟨fun e he => h.words e (List.mem_of_mem_filter he), fun e he => h.counts e (List.mem_of_mem_filter he),
    fun e he => h.short e (List.mem_of_mem_filter he)⟩

theorem read_vector {get : Bytes → Except Err Nat} {id : Bytes → Nat} {entries : List (List Bytes × Nat)}
    (h : GoodEntries get id entries) (hne : ∀ e ∈ entries, e.1 ≠ []) {r : Reader} (hr : Delivers r (fileText entries))
    (parents : List PackedArray) :
    ∃ n, ∀ fuel, n ≤ fuel → readNGramVector get parents fuel r =
      some (match builderPuts parents [] (entries.map fun e => (e.1.map id, e.2)) with
        | .error e => .error e
        | .ok tree => .ok (createPackedArray tree)) := by
  have hp : ∀ e ∈ entries, ∀ w ∈ e.1, PlainWord w := fun e he w hw => (h.words e he w hw).1
  obtain ⟨n, hn⟩ := delivers_lines hr (short_file _ hp h.short)
  refine ⟨n, fun fuel hf => ?_⟩
  unfold readNGramVector
  rw [hn fuel hf]
  simp only
  rw [lines_file _ hp, read_lines _ _ (fun e he => ⟨hne e he, h.counts e he⟩) h.words]
  cases builderPuts parents [] (entries.map fun e => (e.1.map id, e.2)) <;> rfl

theorem read_vectors {get : Bytes → Except Err Nat} {id : Bytes → Nat} :
    ∀ (files : List (List (List Bytes × Nat))) (rs : List Reader) (vectors : List PackedArray),
    (∀ F ∈ files, GoodEntries get id F ∧ ∀ e ∈ F, e.1 ≠ []) → List.Forall₂ (fun r F => Delivers r (fileText F)) rs files →
    ∃ n, ∀ fuel, n ≤ fuel → readNGramVectors get fuel vectors rs =
      some (readVectors vectors (files.map fun F => F.map fun e => (e.1.map id, e.2))) := by
  intro files
  induction files with
  | nil =>
    intro rs vectors _ hrs
    cases hrs
    exact ⟨0, fun fuel _ => rfl⟩
  | cons F files ih =>
    intro rs vectors h hrs
    cases hrs with
    | @cons r _ rs _ hr hrs =>
      obtain ⟨n, hn⟩ := read_vector (h F (by simp)).1 (h F (by simp)).2 hr vectors
      cases hb : builderPuts vectors [] (F.map fun e => (e.1.map id, e.2)) with
      | error e =>
        refine ⟨n, fun fuel hf => ?_⟩
        rw [readNGramVectors, hn fuel hf, hb]
        simp only [List.map_cons, readVectors, hb]
      | ok tree =>
        obtain ⟨n', hn'⟩ := ih rs (vectors ++ [createPackedArray tree]) (fun F hF => h F (by simp [hF])) hrs
        refine ⟨max n n', fun fuel hf => ?_⟩
        rw [readNGramVectors, hn fuel (by omega), hb]
        simp only [List.map_cons, readVectors, hb]
        exact hn' fuel (by omega)

/-! ### the dictionary -/

theorem bytesLt_irrefl : ∀ x : Bytes, bytesLt x x = false
  | [] => rfl
  | a :: x => by simp [bytesLt, bytesLt_irrefl x]

theorem bytesLt_trans : ∀ {x y z : Bytes}, bytesLt x y = true → bytesLt y z = true → bytesLt x z = true
  | [], [], _, h, _ => by simp [bytesLt] at h
  | [], _ :: _, [], _, h => by simp [bytesLt] at h
  | [], _ :: _, _ :: _, _, _ => by simp [bytesLt]
  | _ :: _, [], _, h, _ => by simp [bytesLt] at h
  | _ :: _, _ :: _, [], _, h => by simp [bytesLt] at h
  | a :: x, b :: y, c :: z, h, h' => by
    simp only [bytesLt, Bool.or_eq_true, Bool.and_eq_true, decide_eq_true_eq] at h h' ⊢
    rcases h with h | ⟨rfl, h⟩
    · rcases h' with h' | ⟨rfl, h'⟩
      · exact .inl (UInt8.lt_trans h h')
      · exact .inl h
    · rcases h' with h' | ⟨rfl, h'⟩
      · exact .inl h'
      · exact .inr ⟨rfl, bytesLt_trans h h'⟩

theorem bytesLt_total : ∀ {x y : Bytes}, x ≠ y → bytesLt x y = true ∨ bytesLt y x = true
  | [], [], h => absurd rfl h
  | [], _ :: _, _ => .inl rfl
  | _ :: _, [], _ => .inr rfl
  | a :: x, b :: y, h => by
    simp only [bytesLt, Bool.or_eq_true, Bool.and_eq_true, decide_eq_true_eq]
    by_cases hab : a = b
    · subst hab
      have : x ≠ y := fun e => h (by rw [e])
      rcases bytesLt_total this with h | h
      · exact .inl (.inr ⟨rfl, h⟩)
      · exact .inr (.inr ⟨rfl, h⟩)
    · have : a.toNat ≠ b.toNat := fun e => hab (UInt8.toNat_inj.1 e)
      have : a.toNat < b.toNat ∨ b.toNat < a.toNat := by omega
      rcases this with h | h
      · exact .inl (.inl (UInt8.lt_iff_toNat_lt.2 h))
      · exact .inr (.inl (UInt8.lt_iff_toNat_lt.2 h))

theorem less_iff (n o : Bytes × Nat) : dictItemLess n o = true ↔ n.2 > o.2 ∨ (n.2 = o.2 ∧ bytesLt n.1 o.1 = true) := by
  unfold dictItemLess
  split
  · simp; omega
  · split
    · rename_i h1 h2; simp [h2]
    · rename_i h1 h2; simp [h2]; omega

theorem less_trans {x y z : Bytes × Nat} (h : dictItemLess x y = true) (h' : dictItemLess y z = true) :
    dictItemLess x z = true := by
  rw [less_iff] at *
  rcases h with h | ⟨h, g⟩
  · rcases h' with h' | ⟨h', g'⟩
    · left; omega
    · left; omega
  · rcases h' with h' | ⟨h', g'⟩
    · left; omega
    · right; exact ⟨by omega, bytesLt_trans g g'⟩

theorem less_total {x y : Bytes × Nat} (h : x ≠ y) : dictItemLess x y = true ∨ dictItemLess y x = true := by
  rw [less_iff, less_iff]
  by_cases hc : x.2 = y.2
  · have : x.1 ≠ y.1 := fun e => h (Prod.ext e hc)
    rcases bytesLt_total this with h | h
    · exact .inl (.inr ⟨hc, h⟩)
    · exact .inr (.inr ⟨hc.symm, h⟩)
  · have : x.2 > y.2 ∨ y.2 > x.2 := by omega
    rcases this with h | h
    · exact .inl (.inl h)
    · exact .inr (.inl h)

theorem dictInsert_perm {x : Bytes × Nat} : ∀ {l : List (Bytes × Nat)}, x ∉ l → (dictInsert x l).Perm (x :: l)
  | [], _ => .refl _
  | y :: l, h => by
    simp only [List.mem_cons, not_or] at h
    unfold dictInsert
    split
    · exact .refl _
    · rename_i h1
      split
      · exact ((dictInsert_perm h.2).cons y).trans (.swap x y l)
      · rename_i h2
        rcases less_total h.1 with g | g
        · exact absurd g h1
        · exact absurd g h2

theorem dictInsert_mem {x : Bytes × Nat} : ∀ {l : List (Bytes × Nat)} {z}, z ∈ dictInsert x l → z = x ∨ z ∈ l
  | [], z, h => by simp [dictInsert] at h; exact .inl h
  | y :: l, z, h => by
    unfold dictInsert at h
    split at h
    · simpa using h
    · split at h
      · rcases List.mem_cons.1 h with rfl | h
        · simp
        · rcases dictInsert_mem h with h | h
          · exact .inl h
          · exact .inr (by simp [h])
      · exact .inr h

theorem dictInsert_sorted {x : Bytes × Nat} : ∀ {l : List (Bytes × Nat)}, l.Pairwise (fun a b => dictItemLess a b = true) →
    (dictInsert x l).Pairwise fun a b => dictItemLess a b = true
  | [], _ => by simp [dictInsert]
  | y :: l, h => by
    unfold dictInsert
    have hy := List.pairwise_cons.1 h
    split
    · rename_i h1
      refine List.pairwise_cons.2 ⟨?_, h⟩
      intro z hz
      rcases List.mem_cons.1 hz with rfl | hz
      · exact h1
      · exact less_trans h1 (hy.1 z hz)
    · split
      · rename_i h2
        refine List.pairwise_cons.2 ⟨?_, dictInsert_sorted hy.2⟩
        intro z hz
        rcases dictInsert_mem hz with rfl | hz
        · exact h2
        · exact hy.1 z hz
      · exact h

theorem dict_line {w : Bytes} {c : Nat} (hw : PlainWord w) (hne : w ≠ []) (hc : c < 2 ^ 32) (tree : List (Bytes × Nat)) :
    dictLine tree (lineText [w] c) = .ok (dictInsert (w, c) tree) := by
  unfold dictLine lineText
  have hj : ([32] : Bytes).intercalate [w] = w := by simp
  rw [hj, tabIndex_eq hw.2.1]
  have hl : w.length ≠ 0 := by simpa using hne
  have : (w ++ 9 :: decimal c).drop (w.length + 1) = decimal c := by
    rw [show w ++ 9 :: decimal c = (w ++ [9]) ++ decimal c by simp]
    rw [List.drop_left' (by simp)]
  simp only [this, parseUint32_decimal hc, hl, ↓reduceIte, List.take_left]

theorem dict_fold : ∀ (entries : List (Bytes × Nat)) (tree : List (Bytes × Nat)),
    (∀ e ∈ entries, PlainWord e.1 ∧ e.1 ≠ [] ∧ e.2 < 2 ^ 32) → entries.Nodup → (∀ e ∈ entries, e ∉ tree) →
    tree.Pairwise (fun a b => dictItemLess a b = true) →
    ∃ tree', foldE dictLine tree (entries.map fun e => lineText [e.1] e.2) = .ok tree' ∧ tree'.Perm (entries ++ tree) ∧
      tree'.Pairwise fun a b => dictItemLess a b = true
  | [], tree, _, _, _, hs => ⟨tree, rfl, by simp, hs⟩
  | e :: entries, tree, h, hn, hd, hs => by
    obtain ⟨h1, h2, h3⟩ := h e (by simp)
    rw [List.nodup_cons] at hn
    obtain ⟨tree', t1, t2, t3⟩ := dict_fold entries (dictInsert e tree) (fun x hx => h x (by simp [hx])) hn.2
      (fun x hx hm => by
        rcases dictInsert_mem hm with rfl | hm
        · exact hn.1 hx
        · exact hd x (by simp [hx]) hm) (dictInsert_sorted hs)
    refine ⟨tree', ?_, ?_, t3⟩
    · rw [List.map_cons, foldE, dict_line h1 h2 h3]
      exact t1
    · refine t2.trans (((dictInsert_perm (hd e (by simp))).append_left entries).trans ?_)
      exact List.perm_middle

end Verif.NFiles
