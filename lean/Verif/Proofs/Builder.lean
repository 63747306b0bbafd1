import Verif.Model.Builder
import Verif.Spec.WordSearch
import Verif.Spec.Suggest
import Verif.Props.Analysis
import Verif.Props.Index
/-! Lemmas for the search of words: tokenizers as n-grams of characters, the documents of a dictionary. -/
namespace Verif.WordSearch
open Verif Spec Verif.Props

theorem toNat_ofNat {n : Nat} (h : n.isValidChar) : (Char.ofNat n).toNat = n := by
  unfold Char.ofNat
  rw [dif_pos h]
  simp [Char.toNat, Char.ofNatAux]

theorem goString_inj {a b : Bytes} (h : goString a = goString b) : a = b := by
  have h1 : a.map (fun x => Char.ofNat x.toNat) = b.map (fun x => Char.ofNat x.toNat) := by
    have := congrArg String.toList h
    simpa [goString] using this
  refine List.map_injective_iff.2 ?_ h1
  intro x y hxy
  have hx := congrArg Char.toNat hxy
  have hv : ∀ z : UInt8, (Char.ofNat z.toNat).toNat = z.toNat := by
    intro z
    have := z.toNat_lt
    have hval : Nat.isValidChar z.toNat := by left; omega
    exact toNat_ofNat hval
  rw [hv, hv] at hx
  exact UInt8.toNat_inj.1 hx

/-- The term of the index that stands for an n-gram. -/
def term (g : List Char) : String := goString (utf8 g)

theorem term_inj {a b : List Char} (h : term a = term b) : a = b := utf8_injective (goString_inj h)

theorem map_eraseDups {α β : Type} [BEq α] [LawfulBEq α] [BEq β] [LawfulBEq β] (f : α → β) :
    ∀ (k : Nat) (l : List α), l.length ≤ k → (∀ x ∈ l, ∀ y ∈ l, f x = f y → x = y) →
      (l.map f).eraseDups = l.eraseDups.map f := by
  intro k
  induction k with
  | zero => intro l hl _; cases l with
    | nil => rfl
    | cons => simp at hl
  | succ k ih =>
    intro l hl h
    cases l with
    | nil => rfl
    | cons x l =>
      rw [List.map_cons, List.eraseDups_cons, List.eraseDups_cons, List.map_cons, List.filter_map]
      congr 1
      have e : l.filter ((fun b => !b == f x) ∘ f) = l.filter (fun b => !b == x) := by
        apply List.filter_congr
        intro y hy
        simp only [Function.comp_apply]
        congr 1
        rw [Bool.eq_iff_iff]
        simp only [beq_iff_eq]
        constructor
        · intro e; exact h y (by simp [hy]) x (by simp) e
        · intro e; rw [e]
      rw [e]
      apply ih
      · have := List.length_filter_le (fun b => !b == x) l
        simp at hl; omega
      · intro a ha b hb
        exact h a (by simp [(List.mem_filter.1 ha).1]) b (by simp [(List.mem_filter.1 hb).1])

theorem nodup_eraseDups' {α : Type} [BEq α] [LawfulBEq α] : ∀ (k : Nat) (l : List α), l.length ≤ k → l.eraseDups.Nodup := by
  intro k
  induction k with
  | zero => intro l hl; cases l with
    | nil => simp
    | cons => simp at hl
  | succ k ih =>
    intro l hl
    cases l with
    | nil => simp
    | cons x l =>
      rw [List.eraseDups_cons, List.nodup_cons]
      refine ⟨?_, ih _ ?_⟩
      · rw [List.mem_eraseDups, List.mem_filter]; simp
      · have := List.length_filter_le (fun b => !b == x) l
        simp at hl; omega

/-- The description `d` (as the code has it) says the same as `c`. -/
structure Describes (lower : Nat → Nat) (sort : List Alphabet → List Alphabet) (d : TokenConf) (c : WordConf) : Prop where
  size : d.nGramSize = c.n
  pad : d.pad = utf8 c.pad
  start : d.wrapStart = utf8 c.before
  fin : d.wrapEnd = utf8 c.behind
  letter : ∀ x : Char, (Alphabet.create sort d.alphabet).has x.toNat = c.letter x
  lower : ∀ x : Char, lower x.toNat = (c.lower x).toNat
  pos : 1 ≤ c.n
  le : c.n ≤ 8

variable {lower : Nat → Nat} {sort : List Alphabet → List Alphabet} {d : TokenConf} {c : WordConf}

theorem normalizeToken_utf8 (h : Describes lower sort d c) (t : List Char) :
    normalizeToken (Alphabet.create sort d.alphabet) d.pad (utf8 t) = utf8 (c.normal t) := by
  unfold normalizeToken WordConf.normal
  rw [runesOf_utf8, List.flatMap_map]
  induction t with
  | nil => rfl
  | cons x t ih =>
    rw [List.flatMap_cons, ih, List.flatMap_cons, utf8_append, h.letter]
    congr 1
    split
    · rw [encodeRune_char]; simp [utf8]
    · exact h.pad

theorem tokens_utf8 (h : Describes lower sort d c) {t : List Char} (ht : c.Faithful t) :
    (nGramTokenize d.nGramSize (utf8 t)).map (normalizeFilter (Alphabet.create sort d.alphabet) d.pad) =
      .ok ((c.grams t).map utf8) := by
  rw [h.size, nGramTokenize_utf8 h.pos h.le]
  show Except.ok _ = _
  congr 1
  unfold WordConf.grams normalizeFilter
  have hlen := utf8_length_ge t
  by_cases h1 : (utf8 t).length < c.n
  · rw [if_pos h1, if_pos (by omega), if_pos h1]; rfl
  rw [if_neg h1]
  by_cases h2 : t.length < c.n
  · rw [if_pos h2, if_pos h2, if_neg h1, List.map_singleton, normalizeToken_utf8 h]; rfl
  rw [if_neg h2, if_neg h2, map_eraseDups utf8 _ _ (Nat.le_refl _) (fun x _ y _ e => utf8_injective e), List.map_map,
    map_eraseDups c.normal _ _ (Nat.le_refl _) ht, List.map_map]
  apply List.map_congr_left
  intro x _
  exact normalizeToken_utf8 h x

theorem suggestTokens (h : Describes lower sort d c) {w : List Char} (hw : c.Faithful (c.wordText w)) :
    suggestTokenizer lower sort d (utf8 w) = .ok ((c.grams (c.wordText w)).map utf8) := by
  unfold suggestTokenizer wrapTokenize filterTokenize
  rw [h.start, h.fin, ← utf8_append, ← utf8_append, toLowerText_utf8 c.lower lower h.lower, trimSpaces_utf8]
  exact tokens_utf8 h hw

theorem autocompleteTokens (h : Describes lower sort d c) {p : List Char} (hp : c.Faithful (c.prefixText p)) :
    autocompleteTokenizer lower sort d (utf8 p) = .ok ((c.grams (c.prefixText p)).map utf8) := by
  unfold autocompleteTokenizer wrapTokenize filterTokenize
  rw [h.start, List.append_nil, ← utf8_append, toLowerText_utf8 c.lower lower h.lower, trimSpaces_utf8]
  exact tokens_utf8 h hp

theorem grams_nodup (t : List Char) : (c.grams t).Nodup := by
  unfold WordConf.grams
  split
  · split <;> simp
  · exact nodup_eraseDups' _ _ (Nat.le_refl _)

/-- Clean texts are faithful. -/
theorem faithful_of_clean {t : List Char} (h : ∀ x ∈ t, c.letter x = true ∨ [x] = c.pad) : c.Faithful t := by
  have hid : ∀ w : List Char, (∀ x ∈ w, c.letter x = true ∨ [x] = c.pad) → c.normal w = w := by
    intro w hw
    unfold WordConf.normal
    induction w with
    | nil => rfl
    | cons x w ih =>
      rw [List.flatMap_cons, ih fun y hy => hw y (List.mem_cons_of_mem _ hy)]
      rcases hw x List.mem_cons_self with h | h
      · rw [if_pos h]; rfl
      · rw [← h]; split <;> rfl
  have hsub : ∀ w ∈ windows c.n t, ∀ x ∈ w, x ∈ t := by
    intro w hw x hx
    unfold windows at hw
    obtain ⟨i, _, rfl⟩ := List.mem_map.1 hw
    exact (List.drop_sublist _ _).subset ((List.take_sublist _ _).subset hx)
  intro x hx y hy e
  rwa [hid x fun z hz => h z (hsub x hx z hz), hid y fun z hz => h z (hsub y hy z hz)] at e

/-- The document of a word. -/
def wordDoc (c : WordConf) (i : Nat) (w : List Char) : Doc := ⟨i, (c.grams (c.wordText w)).map term⟩

/-- The documents of a dictionary. -/
def wordDocs (c : WordConf) (words : List (List Char)) : List Doc := words.zipIdx.map fun wi => wordDoc c wi.2 wi.1

theorem mem_wordDocs {words : List (List Char)} {x : Doc} :
    x ∈ wordDocs c words ↔ ∃ (k : Nat) (w : List Char), words[k]? = some w ∧ x = wordDoc c k w := by
  unfold wordDocs
  rw [List.mem_map]
  constructor
  · rintro ⟨⟨w, k⟩, hm, rfl⟩
    exact ⟨k, w, by rw [List.mem_zipIdx_iff_getElem?] at hm; exact hm, rfl⟩
  · rintro ⟨k, w, h, rfl⟩
    exact ⟨(w, k), List.mem_zipIdx_iff_getElem?.2 h, rfl⟩

theorem wordDoc_nodup (i : Nat) (w : List Char) : (wordDoc c i w).terms.Nodup :=
  (grams_nodup _).map_on fun _ _ _ _ e => term_inj e

theorem wordDocs_good {words : List (List Char)} (hlen : words.length < 2 ^ 32)
    (hcard : ∀ w ∈ words, (c.grams (c.wordText w)).length + 1 < 2 ^ 32) : GoodDocs (wordDocs c words) := by
  refine ⟨?_, ?_, ?_, ?_, ?_⟩
  · rw [List.pairwise_iff_getElem]
    intro i j hi hj hij
    simpa [wordDocs, wordDoc] using hij
  · intro x hx
    obtain ⟨k, w, h, rfl⟩ := mem_wordDocs.1 hx
    have := (List.getElem?_eq_some_iff.1 h).1
    show k < _
    omega
  · intro x hx
    obtain ⟨k, w, h, rfl⟩ := mem_wordDocs.1 hx
    exact wordDoc_nodup k w
  · intro x hx
    obtain ⟨k, w, h, rfl⟩ := mem_wordDocs.1 hx
    have := hcard w (List.mem_of_getElem? h)
    simpa [wordDoc] using this
  · simpa [wordDocs] using hlen

theorem wordDocs_first {words : List (List Char)} (h : ∀ w, words.head? = some w → c.grams (c.wordText w) ≠ []) :
    FirstNonempty (wordDocs c words) := by
  intro x hx
  cases words with
  | nil => simp [wordDocs] at hx
  | cons w ws =>
    simp only [wordDocs, List.zipIdx_cons, List.map_cons, List.head?_cons, Option.some.injEq] at hx
    subst hx
    have := h w rfl
    simpa [wordDoc] using this

/-- Indexing the dictionary is adding the documents. -/
theorem indexDict_words (h : Describes lower sort d c) : ∀ (words : List (List Char)) (k : Nat) (ix : Indices),
    (∀ w ∈ words, c.Faithful (c.wordText w)) →
    indexDict (suggestTokenizer lower sort d) (((words.map utf8).zipIdx k).map fun wi => (wi.2, wi.1)) ix =
      addDocuments (((words.zipIdx k).map fun wi => wordDoc c wi.2 wi.1).map fun x => (x.id, x.terms)) ix := by
  intro words
  induction words with
  | nil => intro k ix _; rfl
  | cons w words ih =>
    intro k ix hf
    simp only [List.map_cons, List.zipIdx_cons, indexDict, addDocuments]
    rw [suggestTokens h (hf w (by simp))]
    simp only [List.map_map, wordDoc]
    show (match addDocument ix k ((c.grams (c.wordText w)).map term) with | .error e => _ | .ok ix' => _) = _
    cases he : addDocument ix k ((c.grams (c.wordText w)).map term) with
    | error e => simp [bind, Except.bind]
    | ok ix' =>
      simp only [bind, Except.bind]
      have := ih (k + 1) ix' fun x hx => hf x (by simp [hx])
      simpa [wordDoc, Function.comp_def] using this

theorem indexData_words {ρ : Roaring} {order : Nat → TermMap → TermMap} (h : Describes lower sort d c)
    {words : List (List Char)} (hf : ∀ w ∈ words, c.Faithful (c.wordText w)) :
    indexData ρ order (suggestTokenizer lower sort d) (ramDict (words.map utf8)) =
      match addDocuments ((wordDocs c words).map fun x => (x.id, x.terms)) [] with
      | .error e => .error e
      | .ok ix => commitData ρ order ix := by
  unfold indexData
  rw [show indexDict (suggestTokenizer lower sort d) (ramDict (words.map utf8)) [] = _ from indexDict_words h words 0 [] hf]
  rfl

theorem writerConfig_ne (name : String) : (writerConfig name).header ≠ (writerConfig name).docs := by
  intro e
  have h1 := congrArg String.toList e
  simp only [writerConfig, String.toList_append] at h1
  have := List.append_cancel_left h1
  revert this
  decide

/-- The index directory or RAM directory of a dictionary, opened. -/
def WordIndex (ρ : Roaring) (G : Gob) (lower : Nat → Nat) (sort : List Alphabet → List Alphabet) (d : TokenConf)
    (words : List (List Char)) (oi : OpenIndex) : Prop :=
  ∃ (name : String) (order : Nat → TermMap → TermMap) (splitDocs splitHeader : Bytes → List Bytes),
    (∀ i m, (order i m).Perm m) ∧ (∀ b, (splitDocs b).flatten = b) ∧ (∀ b, (splitHeader b).flatten = b) ∧
    (∀ b h, indexData ρ order (suggestTokenizer lower sort d) (ramDict (words.map utf8)) = .ok (b, h) → b.length < 2 ^ 32) ∧
    (buildRAM ρ G order splitDocs splitHeader name (suggestTokenizer lower sort d) (ramDict (words.map utf8)) = .ok oi ∨
      ∃ fs fs', indexJobFiles ρ G order splitDocs splitHeader name (suggestTokenizer lower sort d)
        (ramDict (words.map utf8)) fs = .ok fs' ∧ buildFS G name fs' = .ok oi)

theorem wordIndex_indexOf {ρ : Roaring} {G : Gob} (h : Describes lower sort d c) {words : List (List Char)}
    (hf : ∀ w ∈ words, c.Faithful (c.wordText w)) {oi : OpenIndex} (ho : WordIndex ρ G lower sort d words oi) :
    IndexOf ρ G (wordDocs c words) oi := by
  obtain ⟨name, order, sd, sh, h1, h2, h3, h4, h5⟩ := ho
  have hid : indexDict (suggestTokenizer lower sort d) (ramDict (words.map utf8)) [] =
      addDocuments ((wordDocs c words).map fun x => (x.id, x.terms)) [] := indexDict_words h words 0 [] hf
  have key : ∀ b hd, indexData ρ order (suggestTokenizer lower sort d) (ramDict (words.map utf8)) = .ok (b, hd) →
      Writes ρ G order (wordDocs c words) (sd b) (sh (G.encode hd)) := by
    intro b hd he
    unfold indexData at he
    rw [hid] at he
    split at he
    · cases he
    · rename_i ix hix
      exact ⟨ix, b, hd, hix, he, h2 b, h3 _⟩
  rcases h5 with h5 | ⟨fs, fs', h5, h6⟩
  · unfold buildRAM at h5
    split at h5
    · cases h5
    · rename_i b hd he
      exact ⟨writerConfig name, order, sd b, sh (G.encode hd), writerConfig_ne name, h1, key b hd he,
        by rw [h2]; exact h4 b hd he, .inr h5⟩
  · unfold indexJobFiles at h5
    split at h5
    · cases h5
    · rename_i b hd he
      cases h5
      exact ⟨writerConfig name, order, sd b, sh (G.encode hd), writerConfig_ne name, h1, key b hd he,
        by rw [h2]; exact h4 b hd he, .inl ⟨fs, h6⟩⟩

/-- If the documents fit in 4 GB, the index can be built in RAM … -/
theorem wordIndex_ram {ρ : Roaring} (L : ρ.Lawful) {G : Gob} (LG : G.Lawful) (h : Describes lower sort d c)
    {words : List (List Char)} (hf : ∀ w ∈ words, c.Faithful (c.wordText w)) (hg : GoodDocs (wordDocs c words))
    (hfirst : FirstNonempty (wordDocs c words)) {order : Nat → TermMap → TermMap} (ho : ∀ i m, (order i m).Perm m)
    (hsize : ∀ b hd, indexData ρ order (suggestTokenizer lower sort d) (ramDict (words.map utf8)) = .ok (b, hd) →
      b.length < 2 ^ 32) (name : String) {sd sh : Bytes → List Bytes} (hsd : ∀ b, (sd b).flatten = b) (hsh : ∀ b, (sh b).flatten = b) :
    ∃ oi, buildRAM ρ G order sd sh name (suggestTokenizer lower sort d) (ramDict (words.map utf8)) =
      .ok oi ∧ WordIndex ρ G lower sort d words oi := by
  obtain ⟨dw, hw, hw'⟩ := C19_commit_succeeds L ho G (wordDocs c words) hg hfirst
  obtain ⟨ix, b, hd, e1, e2, e3, e4⟩ := hw'
  have e : indexData ρ order (suggestTokenizer lower sort d) (ramDict (words.map utf8)) = .ok (b, hd) := by
    rw [indexData_words h hf, e1]; exact e2
  obtain ⟨oi, ho', _⟩ := C19_read_back_ram L LG ho (writerConfig name) (writerConfig_ne name) (wordDocs c words) (sd b)
    (sh (G.encode hd)) hg hfirst ⟨ix, b, hd, e1, e2, hsd b, hsh _⟩ (by rw [hsd]; exact hsize b hd e)
  have hb : buildRAM ρ G order sd sh name (suggestTokenizer lower sort d) (ramDict (words.map utf8)) =
      .ok oi := by
    unfold buildRAM; rw [e]; exact ho'
  exact ⟨oi, hb, name, order, sd, sh, ho, hsd, hsh, hsize, .inl hb⟩

/-- … and on disc (if there is a term at all), whatever files there were. -/
theorem wordIndex_fs {ρ : Roaring} (L : ρ.Lawful) {G : Gob} (LG : G.Lawful) (h : Describes lower sort d c)
    {words : List (List Char)} (hf : ∀ w ∈ words, c.Faithful (c.wordText w)) (hg : GoodDocs (wordDocs c words))
    (hfirst : FirstNonempty (wordDocs c words)) {order : Nat → TermMap → TermMap} (ho : ∀ i m, (order i m).Perm m)
    {b : Bytes} {hd : Header}
    (hb : indexData ρ order (suggestTokenizer lower sort d) (ramDict (words.map utf8)) = .ok (b, hd))
    (hsize : b.length < 2 ^ 32) (hne : b ≠ []) (name : String) (fs : Files) :
    ∃ fs' oi, indexJobFiles ρ G order (fun b => [b]) (fun b => [b]) name (suggestTokenizer lower sort d)
        (ramDict (words.map utf8)) fs = .ok fs' ∧ buildFS G name fs' = .ok oi ∧ WordIndex ρ G lower sort d words oi := by
  have hb' := hb
  rw [indexData_words h hf] at hb'
  split at hb'
  · cases hb'
  rename_i ix e1
  obtain ⟨oi, ho', _⟩ := C19_read_back_fs L LG ho (writerConfig name) (writerConfig_ne name) fs (wordDocs c words) [b]
    [G.encode hd] hg hfirst ⟨ix, b, hd, e1, hb', by simp, by simp⟩ (by simpa using hsize) (by simpa using hne)
  have hj : indexJobFiles ρ G order (fun b => [b]) (fun b => [b]) name (suggestTokenizer lower sort d)
        (ramDict (words.map utf8)) fs =
      .ok ((commitOpsFS (writerConfig name) [b] [G.encode hd]).foldl applyFS fs) := by
    unfold indexJobFiles; rw [hb]
  refine ⟨_, oi, hj, ho', name, order, fun b => [b], fun b => [b], ho, by simp, by simp, ?_, .inr ⟨fs, _, hj, ho'⟩⟩
  intro b' hd' he
  rw [hb] at he
  cases he
  exact hsize

/-- Terms shared by query and document = n-grams shared by query and word. -/
theorem shared_words (a : List (List Char)) (k : Nat) (w : List Char) :
    shared (a.map term) (wordDoc c k w) = (a.filter (· ∈ c.grams (c.wordText w))).length := by
  unfold shared wordDoc
  rw [List.filter_map, List.length_map]
  congr 1
  apply List.filter_congr
  intro x _
  simp only [Function.comp_apply, decide_eq_decide]
  constructor
  · intro hx
    obtain ⟨y, hy, e⟩ := List.mem_map.1 hx
    rwa [← term_inj e]
  · exact fun hx => List.mem_map_of_mem hx

theorem dict_get {words : List (List Char)} {k : Nat} {w : List Char} (h : words[k]? = some w) :
    (ramDict (words.map utf8)).get k = utf8 w := by
  have aux : ∀ (l : List Bytes) (k j : Nat), k ≤ j →
      (((l.zipIdx k).map fun wi => (wi.2, wi.1)).find? fun e => e.1 == j) = (l[j - k]?).map fun w => (j, w) := by
    intro l
    induction l with
    | nil => intro k j _; simp
    | cons w l ih =>
      intro k j hkj
      by_cases h : k = j
      · subst h; simp
      · rw [List.zipIdx_cons, List.map_cons, List.find?_cons_of_neg (by simpa using h), ih (k + 1) j (by omega)]
        have : j - k = (j - (k + 1)) + 1 := by omega
        rw [this]; simp
  unfold Dict.get ramDict
  rw [aux _ 0 k (by omega)]
  simp [h]

theorem answer_ok (dict : Dict) (cs : List (Candidate ℚ)) :
    answerOf dict (.ok cs) = .ok (cs.map fun c => (c.score, dict.get c.key)) := by
  have : (serve (some ()) (some dict) (fun _ => .ok cs) fun d c => (.ok (d.get c.key) : Except Err Bytes)) =
      .ok (cs.map fun c => (c, dict.get c.key)) := by
    unfold serve
    simp only
    induction cs with
    | nil => rfl
    | cons x xs ih => simp only [List.foldr_cons, ih, List.map_cons]
  unfold answerOf
  rw [this]
  simp only [Except.map, List.map_map]
  rfl

theorem forall₂_mem {α β : Type} {R : α → β → Prop} {l : List α} {m : List β} (h : List.Forall₂ R l m) :
    List.Forall₂ (fun a b => b ∈ m ∧ R a b) l m := by
  induction h with
  | nil => exact .nil
  | cons h _ ih => exact .cons ⟨by simp, h⟩ (ih.imp fun a b hab => ⟨by simp [hab.1], hab.2⟩)

end Verif.WordSearch
