import Verif.Proofs.Eval
import Verif.Proofs.ScannerAny
import Verif.Props.FileSearch
import Verif.Props.Corrections
/-!
Property theorems C93: the interactive commands `suggest eval`, `lm eval` and `spellchecker eval` (cmd/*/cmd/eval.go), from the
bytes of standard input to what is printed.

`Complete asked Good lines out` (Verif/Spec/Eval.lean) — the output is a prompt, then for every line, in order, a good answer to
what the line asks, if it asks anything, and the next prompt.
-/
namespace Verif.Props
open Verif Spec Verif.Eval Verif.WordSearch Verif.Scan

/-- **C93** `strings.TrimSpace` as used by `suggest eval`: the white space of Unicode is removed at both ends, nothing else. -/
theorem C93_trim (cs : List Char) : trimSpace (utf8 cs) = utf8 (strip cs) := trimSpace_utf8 cs

example : strip " \u00a0app le\u3000\t".toList = "app le".toList := by decide +kernel

/-- **C93** Every session of every command, whatever the input: the output is a prompt, and then, for the first `k` lines of the
input, in order, the outcome of the line and a prompt. It ends without an error only after all lines of the input; with an
error when the line after the first `k` fails with it, or when reading the input fails (with an error other than io.EOF) or a
line is too long. -/
theorem C93_order {α : Type} {ask : Bytes → Option (Except Err α) → Prop} {stdin : Reader} (hr : ∀ c ∈ stdin.chunks, c ≠ [])
    {out : List (Shown α)} {e : Option Err} (h : Session ask stdin out e) :
    ∃ (k : Nat) (rs : List (Option α)), k ≤ (Spec.lines stdin.chunks.flatten).length ∧
      List.Forall₂ (fun l r => ask l (r.map .ok)) ((Spec.lines stdin.chunks.flatten).take k) rs ∧ out = .prompt :: rs.flatMap printed ∧
      ((k = (Spec.lines stdin.chunks.flatten).length ∧ e = if stdin.last = .eof then none else some stdin.last) ∨
        e = some errTooLong ∨
        ∃ l err, (Spec.lines stdin.chunks.flatten)[k]? = some l ∧ ask l (some (.error err)) ∧ e = some err) := by
  cases h with
  | mk hy hl =>
    rename_i lines scanErr out
    obtain ⟨k, rs, h1, h2, h3⟩ := loop_spec hl
    have hlen := h1.length_eq
    rw [h2]
    rcases yields_any scanLines_ok hr with hy' | ⟨ts, hp, hy'⟩
    · obtain ⟨rfl, rfl⟩ := yields_unique hy hy'
      have hk : k ≤ (Spec.lines stdin.chunks.flatten).length := by
        rcases h3 with h | ⟨l, _, h, _⟩
        · omega
        · have := (List.getElem?_eq_some_iff.1 h).1; omega
      refine ⟨k, rs, hk, h1, rfl, ?_⟩
      rcases h3 with ⟨h, h'⟩ | h
      · exact .inl ⟨h, h'⟩
      · exact .inr (.inr h)
    · obtain ⟨rfl, rfl⟩ := yields_unique hy hy'
      obtain ⟨more, hmore⟩ := hp
      have hk : k ≤ lines.length := by
        rcases h3 with h | ⟨l, _, h, _⟩
        · omega
        · have := (List.getElem?_eq_some_iff.1 h).1; omega
      refine ⟨k, rs, by rw [← hmore, List.length_append]; omega, by rw [← hmore, List.take_append_of_le_length hk]; exact h1, rfl, ?_⟩
      rcases h3 with ⟨h, h'⟩ | ⟨l, err, h, h'⟩
      · exact .inr (.inl h')
      · refine .inr (.inr ⟨l, err, ?_, h'⟩)
        rw [← hmore, List.getElem?_append_left (List.getElem?_eq_some_iff.1 h).1]
        exact h

/-- **C93** A line of more than 64 KiB ends every session with an error, after the lines before it (if none of them fails). -/
theorem C93_long_line {α : Type} {ask : Bytes → Option (Except Err α) → Prop} {stdin : Reader} (hr : ∀ c ∈ stdin.chunks, c ≠ [])
    {pre : List Bytes} {long rest : Bytes} (ht : stdin.chunks.flatten = (pre.flatMap fun l => l ++ [10]) ++ (long ++ rest))
    (hpre : ∀ l ∈ pre, 10 ∉ l ∧ l.length < 65536) (hl : 10 ∉ long) (hlong : 65536 < long.length)
    (hask : ∀ l ∈ pre, ∀ err, ¬ ask (Spec.chomp l) (some (.error err)))
    {out : List (Shown α)} {e : Option Err} (h : Session ask stdin out e) :
    e = some errTooLong ∧
      ∃ rs, List.Forall₂ (fun l r => ask (Spec.chomp l) (r.map .ok)) pre rs ∧ out = .prompt :: rs.flatMap printed := by
  cases h with
  | mk hy hloop =>
    obtain ⟨rfl, rfl⟩ := yields_unique hy (yields_trunc scanLines_trunc hr ⟨pre, long, rest, ht, rfl, hpre, hl, hlong⟩)
    obtain ⟨k, rs, h1, h2, h3⟩ := loop_spec hloop
    have h3' : k = (pre.map Spec.chomp).length ∧ e = some errTooLong := by
      rcases h3 with h | ⟨l, err, h4, h5, _⟩
      · exact h
      · rw [List.getElem?_map, Option.map_eq_some_iff] at h4
        obtain ⟨l', h6, rfl⟩ := h4
        exact absurd h5 (hask l' (List.mem_of_getElem? h6) err)
    refine ⟨h3'.2, rs, ?_, by rw [h2]⟩
    rw [h3'.1, List.take_length, List.forall₂_map_left_iff] at h1
    exact h1

/-- Standard input with the given lines, none of them with 64 KiB or more, without a read error. -/
structure Typed (stdin : Reader) (lines : List (List Char)) : Prop where
  chunks : ∀ c ∈ stdin.chunks, c ≠ []
  last : stdin.last = .eof
  short : ∀ l ∈ stdin.chunks.flatten.splitOn 10, l.length < 65536
  text : Spec.lines stdin.chunks.flatten = lines.map utf8

theorem typed_yields {stdin : Reader} {lines : List (List Char)} (h : Typed stdin lines) :
    (newScanner stdin).Yields scanLines (lines.map utf8) none := by
  have := yields_new scanLines_ok scanLines_fits h.chunks h.short
  rwa [h.text, if_pos h.last] at this

theorem session_complete {Q α : Type} {ask : Bytes → Option (Except Err α) → Prop} {stdin : Reader} {lines : List (List Char)}
    (hin : Typed stdin lines) {asked : List Char → Option Q} {Good : Q → α → Prop}
    (hask : ∀ l ∈ lines, ∀ r, ask (utf8 l) r → ∃ x, r = x.map .ok ∧ Reply asked Good l x)
    {out : List (Shown α)} {e : Option Err} (h : Session ask stdin out e) : e = none ∧ Complete asked Good lines out := by
  cases h with
  | mk hy hl =>
    obtain ⟨rfl, rfl⟩ := yields_unique hy (typed_yields hin)
    exact loop_complete hask hl

theorem session_exists {α : Type} {ask : Bytes → Option (Except Err α) → Prop} {stdin : Reader} {lines : List (List Char)}
    (hin : Typed stdin lines) (hask : ∀ l ∈ lines, ∃ r, ask (utf8 l) r) : ∃ out e, Session ask stdin out e := by
  obtain ⟨out, e, h⟩ := loop_exists (ask := ask) (scanErr := none) (lines := lines.map utf8) (by
    intro l hl
    obtain ⟨l', h', rfl⟩ := List.mem_map.1 hl
    exact hask l' h')
  exact ⟨_, e, .mk (typed_yields hin) h⟩

/-! ### suggest eval -/

theorem addAll_none {D C : Type} {nameOf : D → String} {loads : D → Except Err C → Prop} {dict : String} {m : List (String × C)} {ds : List D}
    {r : Except Err (List (String × C))} (hno : ∀ d ∈ ds, nameOf d ≠ dict) (h : AddAll nameOf loads dict m ds r) : r = .ok m := by
  induction h with
  | done => rfl
  | other _ _ ih => exact ih fun d hd => hno d (by simp [hd])
  | fail h => exact absurd h (hno _ (by simp))
  | add h => exact absurd h (hno _ (by simp))

/-- The service holds what the last description of this name gave. -/
theorem addAll_last {D C : Type} {nameOf : D → String} {loads : D → Except Err C → Prop} {dict : String} {before after : List D} {desc : D}
    (hd : nameOf desc = dict) (hno : ∀ d ∈ after, nameOf d ≠ dict) {m : List (String × C)} (hm : ∀ x ∈ m, x.1 = dict)
    {m' : List (String × C)} (h : AddAll nameOf loads dict m (before ++ desc :: after) (.ok m')) :
    ∃ c, loads desc (.ok c) ∧ m' = [(dict, c)] := by
  have hput : ∀ {m : List (String × C)}, (∀ x ∈ m, x.1 = dict) → ∀ c, put m dict c = [(dict, c)] := by
    intro m hm c
    unfold put
    rw [List.filter_eq_nil_iff.2 (by intro x hx; simp [hm x hx])]
  induction before generalizing m with
  | nil =>
    cases h with
    | other h => exact absurd hd h
    | add _ hl hrest =>
      have := addAll_none hno hrest
      rw [hd, hput hm] at this
      injection this with this
      exact ⟨_, hl, this⟩
  | cons x before ih =>
    cases h with
    | other _ h => exact ih hm h
    | add hx hl h =>
      refine ih ?_ h
      rw [hx, hput hm]
      simp

theorem addAll_error {D C : Type} {nameOf : D → String} {loads : D → Except Err C → Prop} {dict : String} {m : List (String × C)} {ds : List D}
    {e : Err} (h : AddAll nameOf loads dict m ds (.error e)) : ∃ d ∈ ds, nameOf d = dict ∧ loads d (.error e) := by
  generalize hr : Except.error e = r at h
  induction h with
  | done => cases hr
  | other _ _ ih => obtain ⟨d, h1, h2⟩ := ih hr; exact ⟨d, by simp [h1], h2⟩
  | fail h1 h2 => cases hr; exact ⟨_, by simp, h1, h2⟩
  | add _ _ _ ih => obtain ⟨d, h1, h2⟩ := ih hr; exact ⟨d, by simp [h1], h2⟩

section
variable {F : FloatOps ℚ} {ρ : Roaring} {G : Gob} {order : Nat → TermMap → TermMap} {sd sh : Bytes → List Bytes}
  {msort : List (PList ρ) → List (PList ρ)} {tok : IndexDesc → Tokenizer} {disc : String → DiscState} {ds : List IndexDesc} {dict : String}
  {topK : Int} {similarity : F64} {stdin : Reader} {out : List (Shown (List (ℚ × Bytes)))} {e : Option Err}

/-- **C93** If the configuration describes no dictionary of the given name, the command prints nothing and ends with an error. -/
theorem C93_unknown_dictionary (hno : ∀ d ∈ ds, d.name ≠ dict)
    (h : SuggestEval F ρ G order sd sh msort tok disc (some ds) dict topK similarity stdin out e) : out = [] ∧ e = some errNotFound := by
  cases h with
  | noConfig _ h => cases h
  | refused h1 h2 =>
    cases h1
    cases h2 with
    | fail h => cases addAll_none hno h
    | missing h => exact ⟨rfl, rfl⟩
  | session h1 h2 =>
    cases h1
    cases h2 with
    | ok h hl =>
      cases addAll_none hno h
      cases hl

/-- **C93** With flags out of range (topK < 1, or a similarity that is not in (0, 1]) no line is ever answered, and the command
fails unless all lines are blank. -/
theorem C93_bad_flags {lines : List (List Char)} (hin : Typed stdin lines) {x : ℚ} (hsim : similarity = .num x)
    (hbad : topK < 1 ∨ x ≤ 0 ∨ 1 < x)
    (h : SuggestEval F ρ G order sd sh msort tok disc (some ds) dict topK similarity stdin out e) :
    (∀ a, .answer a ∉ out) ∧ ((∃ l ∈ lines, strip l ≠ []) → e ≠ none) := by
  have hconf : ∀ q c, newSearchConfig q topK MetricName.cosine similarity ≠ .ok c := by
    intro q c hc
    unfold newSearchConfig at hc
    split at hc
    · cases hc
    · split at hc
      · cases hc
      · rename_i h1 h2
        rw [hsim] at h2
        simp [F64.le, F64.gt] at h2
        rcases hbad with h | h | h
        · omega
        · exact absurd h (not_le.2 h2.1)
        · exact absurd h (not_lt.2 h2.2)
  cases h with
  | noConfig _ h => cases h
  | refused => simp
  | session h1 h2 h3 =>
    cases h3 with
    | mk hy hl =>
      rename_i m lines' scanErr out
      obtain ⟨rfl, rfl⟩ := yields_unique hy (typed_yields hin)
      clear hin hy
      suffices hs : (∀ a, .answer a ∉ out) ∧ ((∃ l ∈ lines, strip l ≠ []) → e ≠ none) by
        exact ⟨fun a => by simp [hs.1 a], hs.2⟩
      generalize hL : lines.map utf8 = L at hl
      induction hl generalizing lines with
      | done => cases lines <;> simp_all
      | skip ha _ ih =>
        cases lines with
        | nil => cases hL
        | cons l lines =>
          cases hL
          obtain ⟨i1, i2⟩ := ih rfl
          refine ⟨fun a => by simp [i1 a], ?_⟩
          rintro ⟨l', hl', hne⟩
          cases ha with
          | blank hb =>
            rcases List.mem_cons.1 hl' with rfl | h
            · rw [C93_trim] at hb
              exact absurd (utf8_injective (b := []) hb) hne
            · exact i2 ⟨l', h, hne⟩
      | fail => simp
      | answered ha =>
        cases ha with
        | search _ hc | searchNaN _ hc => exact absurd hc (hconf _ _)

end

section
variable {ρ : Roaring} (L : ρ.Lawful) {G : Gob} (LG : G.Lawful) {order : Nat → TermMap → TermMap} (ho : ∀ i m, (order i m).Perm m)
  {lower : Nat → Nat} {sort : List Alphabet → List Alphabet} {d : TokenConf} {c : WordConf} (hdc : Describes lower sort d c)
  {words : List (List Char)} (hwords : words.length < 2 ^ 32) (hfaith : ∀ w ∈ words, c.Faithful (c.wordText w))
  (hfirst : ∀ w, words.head? = some w → c.grams (c.wordText w) ≠ [])
  (hn : ∀ w ∈ words, (c.grams (c.wordText w)).length ≤ 32767)
  {sd sh : Bytes → List Bytes} (hsd : ∀ b, (sd b).flatten = b) (hsh : ∀ b, (sh b).flatten = b)
  (hsize : ∀ b hd, indexData ρ order (suggestTokenizer lower sort d) (ramDict (words.map utf8)) = .ok (b, hd) → b.length < 2 ^ 32)
  (hne : words ≠ []) {msort : List (PList ρ) → List (PList ρ)} (hms : ∀ r, (msort r).Perm r)

/-- The configuration `ds` gives the name `dict` to one or several dictionaries; the last one, `desc`, has the words as the lines
of its source (none with 64 KiB or more) and can be read. With the DISC driver, the indexer command has run successfully for it
(at any earlier time, whatever was on the disc before). -/
structure LastNamed (ρ : Roaring) (G : Gob) (order : Nat → TermMap → TermMap) (sd sh : Bytes → List Bytes) (tok : IndexDesc → Tokenizer)
    (disc : String → DiscState) (ds : List IndexDesc) (dict : String) (words : List (List Char)) (desc : IndexDesc) : Prop where
  last : ∃ before after, ds = before ++ desc :: after ∧ ∀ x ∈ after, x.name ≠ dict
  name : desc.name = dict
  source : ∃ r, desc.source = some r ∧ (∀ x ∈ r.chunks, x ≠ []) ∧ (∀ l ∈ r.chunks.flatten.splitOn 10, l.length < 65536) ∧
    Spec.lines r.chunks.flatten = words.map utf8
  indexed : desc.disc = true → ∃ (jobs : List IndexDesc) (flag : String) (ops : List (String × JobOp)) (w : String → DiscState),
    desc ∈ jobs ∧ Wanted flag desc ∧ (∀ d ∈ jobs, ∀ r, d.source = some r → ∀ c ∈ r.chunks, c ≠ []) ∧
    (jobs.Pairwise fun a b => a.place ≠ b.place) ∧ IndexerRun ρ G order sd sh tok flag jobs ops none ∧ disc = ops.foldl applyAt w

include L LG ho hdc hwords hfaith hfirst hn hsd hsh hsize hne in
/-- Loading the description gives the words and their index. -/
theorem named_loads {tok : IndexDesc → Tokenizer} {disc : String → DiscState} {ds : List IndexDesc} {dict : String} {desc : IndexDesc}
    (hl : LastNamed ρ G order sd sh tok disc ds dict words desc) (htok : tok desc = suggestTokenizer lower sort d)
    {x : Except Err (OpenIndex × Dict)} (h : Loads ρ G order sd sh tok disc desc x) :
    ∃ oi, x = .ok (oi, ramDict (words.map utf8)) ∧ WordIndex ρ G lower sort d words oi := by
  obtain ⟨r, s1, s2, s3, s4⟩ := hl.source
  unfold Loads at h
  by_cases hdisc : desc.disc = true
  · rw [if_pos hdisc] at h
    obtain ⟨jobs, flag, ops, w, g1, g2, g3, g4, g5, g6⟩ := hl.indexed hdisc
    obtain ⟨oi, h1, h2⟩ := C76_disc L LG ho hdc hwords hfaith hfirst hn hsd hsh hsize hne g3 g4 g5 g1 g2 hdisc htok s1 s4 w
    rw [g6, h1] at h
    exact ⟨oi, h, h2⟩
  · rw [if_neg hdisc, htok] at h
    exact C76_ram_partial L LG ho hdc hwords hfaith hfirst hn hsd hsh hsize s1 s2 s3 s4 h

/-- What a line of `suggest eval` asks: the text without white space at its ends, if there is any. -/
def askedQuery (l : List Char) : Option (List Char) := if strip l = [] then none else some (strip l)

include L LG ho hdc hwords hfaith hfirst hn hsd hsh hsize hne hms in
/-- **C93** `suggest eval`, from the bytes of the source of the dictionary and the bytes of standard input to the words printed:
for every line that is not blank, in order, the best matches (cosine similarity) of the line without the white space at its ends.
The command ends without an error — or before the first prompt, if another description of the same name cannot be loaded. -/
theorem C93_suggest {tok : IndexDesc → Tokenizer} {disc : String → DiscState} {ds : List IndexDesc} {dict : String} {desc : IndexDesc}
    (hl : LastNamed ρ G order sd sh tok disc ds dict words desc) (htok : tok desc = suggestTokenizer lower sort d)
    {stdin : Reader} {lines : List (List Char)} (hin : Typed stdin lines)
    (hq : ∀ l ∈ lines, strip l ≠ [] → c.Faithful (c.wordText (strip l)) ∧ (c.grams (c.wordText (strip l))).length ≤ 65535)
    {oob : Int} {α : ℚ} (h0 : 1 / 2 ^ 20 ≤ α) (h1 : α ≤ 1) {K : Nat} (hK : 1 ≤ K) {out : List (Shown (List (ℚ × Bytes)))} {e : Option Err}
    (h : SuggestEval (f64Ops oob) ρ G order sd sh msort tok disc (some ds) dict K (.num α) stdin out e) :
    (e = none ∧ Complete askedQuery (BestMatches c cosineSim words α K) lines out) ∨
      (out = [] ∧ ∃ other ∈ ds, other ≠ desc ∧ other.name = dict ∧ ∃ err, e = some err ∧ Loads ρ G order sd sh tok disc other (.error err)) := by
  obtain ⟨before, after, rfl, hafter⟩ := hl.last
  have hload := fun x hx => named_loads L LG ho hdc hwords hfaith hfirst hn hsd hsh hsize hne hl htok (x := x) hx
  cases h with
  | noConfig _ h => cases h
  | refused g1 g2 =>
    cases g1
    cases g2 with
    | fail g =>
      rename_i err
      obtain ⟨other, o1, o2, x, o3, o4⟩ := addAll_error g
      have hx : x = .error err := by
        cases x with
        | error => cases o4; rfl
        | ok => cases o4
      subst hx
      refine .inr ⟨rfl, other, o1, ?_, o2, err, rfl, o3⟩
      rintro rfl
      obtain ⟨_, hh, _⟩ := hload _ o3
      cases hh
    | missing g g2 =>
      obtain ⟨_, _, rfl⟩ := addAll_last hl.name hafter (by simp) g
      simp at g2
  | session g1 g2 g3 =>
    cases g1
    cases g2 with
    | ok g g' =>
      obtain ⟨p, ⟨x, hx, hp⟩, rfl⟩ := addAll_last hl.name hafter (by simp) g
      obtain ⟨oi, rfl, hoi⟩ := hload x hx
      cases hp
      refine .inl (session_complete hin ?_ g3)
      intro l hlin r hr
      have hlook : List.lookup dict [(dict, (tok desc, oi, ramDict (words.map utf8)))] = some (tok desc, oi, ramDict (words.map utf8)) := by
        simp [List.lookup]
      have hconf : ∀ q, newSearchConfig q (K : Int) MetricName.cosine (.num α) = .ok ⟨q, K, .cosine, .num α⟩ := by
        intro q
        have h0' : 0 < α := lt_of_lt_of_le (by norm_num) h0
        unfold newSearchConfig
        rw [if_neg (by omega), if_neg (by simp [F64.le, F64.gt, not_le.2 h0', not_lt.2 h1])]
      have htrim : trimSpace (utf8 l) = [] ↔ strip l = [] := by
        rw [C93_trim]
        exact ⟨fun h => utf8_injective (h.trans rfl), fun h => by rw [h]; rfl⟩
      unfold Reply askedQuery
      cases hr with
      | blank hb => exact ⟨none, rfl, by rw [if_pos (htrim.1 hb)]⟩
      | bad _ hc => rw [hconf] at hc; cases hc
      | unknown _ _ hc => rw [hlook] at hc; cases hc
      | searchNaN _ hc hx =>
        rw [hconf] at hc; cases hc
        cases hx
      | search hb hc hx hlk hs =>
        rw [hconf] at hc; cases hc
        cases hx
        rw [hlook] at hlk; cases hlk
        have hsl : strip l ≠ [] := fun h => hb (htrim.2 h)
        obtain ⟨q1, q2⟩ := hq l hlin hsl
        rw [C93_trim, htok] at hs
        obtain ⟨items, ks, e1, e2⟩ := C67_suggest_words L LG hdc hwords hfaith hfirst hn hoi hms q1 q2 h0 h1 .cosine hK hs
        refine ⟨some items, by rw [e1]; rfl, ?_⟩
        rw [if_neg hsl]
        exact ⟨items, rfl, ks, e2⟩

include L LG ho hdc hwords hfaith hfirst hn hsd hsh hsize hne hms in
/-- **C93** (partial: for every query some word must have at least `MinY(α, |query|)` n-grams, see C30) … and, if `desc` is the
only description of this name, the command does answer all lines: no search panics, blocks or runs for ever (C67). -/
theorem C93_suggest_answers_partial {tok : IndexDesc → Tokenizer} {disc : String → DiscState} {ds : List IndexDesc} {dict : String}
    {desc : IndexDesc} (hl : LastNamed ρ G order sd sh tok disc ds dict words desc) (htok : tok desc = suggestTokenizer lower sort d)
    (honly : ∃ before after, ds = before ++ desc :: after ∧ ∀ x ∈ before ++ after, x.name ≠ dict)
    {stdin : Reader} {lines : List (List Char)} (hin : Typed stdin lines)
    (hq : ∀ l ∈ lines, strip l ≠ [] → c.Faithful (c.wordText (strip l)) ∧ (c.grams (c.wordText (strip l))).length ≤ 65535)
    {oob : Int} {α : ℚ} (h0 : 1 / 2 ^ 20 ≤ α) (h1 : α ≤ 1) {K : Nat} (hK : 1 ≤ K)
    (hlong : ∀ l ∈ lines, strip l ≠ [] →
      ∃ w ∈ words, (cosineMetric (f64Ops oob)).minY α (c.grams (c.wordText (strip l))).length ≤ (c.grams (c.wordText w)).length) :
    ∃ out, SuggestEval (f64Ops oob) ρ G order sd sh msort tok disc (some ds) dict K (.num α) stdin out none := by
  obtain ⟨before, after, rfl, hno⟩ := honly
  have hex : ∃ x, Loads ρ G order sd sh tok disc desc x := by
    unfold Loads
    split
    · exact ⟨_, rfl⟩
    · obtain ⟨r, s1, s2, s3, _⟩ := hl.source
      exact ⟨_, .built s1 (yields_new scanLines_ok scanLines_fits s2 s3)⟩
  obtain ⟨x, hx⟩ := hex
  obtain ⟨oi, rfl, hoi⟩ := named_loads L LG ho hdc hwords hfaith hfirst hn hsd hsh hsize hne hl htok hx
  have hadd : AddAll (·.name) (fun d r => ∃ x, Loads ρ G order sd sh tok disc d x ∧ r = x.map fun p => (tok d, p)) dict []
      (before ++ desc :: after) (.ok [(dict, (tok desc, oi, ramDict (words.map utf8)))]) := by
    have hafter : ∀ (m : List (String × (Tokenizer × OpenIndex × Dict))) (l : List IndexDesc), (∀ x ∈ l, x.name ≠ dict) →
        AddAll (·.name) (fun d r => ∃ x, Loads ρ G order sd sh tok disc d x ∧ r = x.map fun p => (tok d, p)) dict m l (.ok m) := by
      intro m l h
      induction l with
      | nil => exact .done
      | cons x l ih => exact .other (h x (by simp)) (ih fun y hy => h y (by simp [hy]))
    induction before with
    | nil =>
      refine .add hl.name ⟨_, hx, rfl⟩ ?_
      have : put ([] : List (String × (Tokenizer × OpenIndex × Dict))) desc.name (tok desc, oi, ramDict (words.map utf8)) =
          [(dict, (tok desc, oi, ramDict (words.map utf8)))] := by rw [hl.name]; rfl
      show AddAll _ _ _ (put [] desc.name _) _ _
      rw [this]
      exact hafter _ _ fun y hy => hno y (by simp [hy])
    | cons y before ih =>
      refine .other (hno y (by simp)) (ih (fun z hz => hno z (by simp only [List.cons_append, List.mem_cons]; exact .inr hz)) ?_)
      exact { hl with last := ⟨before, after, rfl, fun z hz => hno z (by simp [hz])⟩ }
  have hlook : List.lookup dict [(dict, (tok desc, oi, ramDict (words.map utf8)))] = some (tok desc, oi, ramDict (words.map utf8)) := by
    simp [List.lookup]
  have hconf : ∀ q, newSearchConfig q (K : Int) MetricName.cosine (.num α) = .ok ⟨q, K, .cosine, .num α⟩ := by
    intro q
    have h0' : 0 < α := lt_of_lt_of_le (by norm_num) h0
    unfold newSearchConfig
    rw [if_neg (by omega), if_neg (by simp [F64.le, F64.gt, not_le.2 h0', not_lt.2 h1])]
  obtain ⟨out, e, hs⟩ := session_exists (ask := SuggestAsk (f64Ops oob) ρ msort K (.num α) [(dict, (tok desc, oi, ramDict (words.map utf8)))] dict) hin (by
    intro l hlin
    by_cases hb : strip l = []
    · exact ⟨none, .blank (by rw [C93_trim, hb]; rfl)⟩
    · obtain ⟨q1, q2⟩ := hq l hlin hb
      obtain ⟨_, _, _, _, _, r, hr⟩ := C67_answers_partial L LG hdc hwords hfaith hfirst hn hoi hms q1 q2 h0 h1 .cosine hK (hlong l hlin hb)
      refine ⟨some r, .search ?_ (hconf _) rfl hlook ?_⟩
      · rw [C93_trim]
        exact fun h => hb (utf8_injective (h.trans rfl))
      · rw [C93_trim, htok]
        exact hr)
  have hrun := SuggestEval.session (F := f64Ops oob) (ρ := ρ) (disc := disc) rfl (.ok hadd rfl) hs
  rcases C93_suggest L LG ho hdc hwords hfaith hfirst hn hsd hsh hsize hne hms hl htok hin hq h0 h1 hK hrun with ⟨rfl, _⟩ | ⟨hout, _⟩
  · exact ⟨out, hrun⟩
  · cases hs; cases hout

end

/-! ### lm eval -/

theorem map_wordGroups {A B : Type} (f : A → B) (n : Nat) (s : List A) : wordGroups n (s.map f) = (wordGroups n s).map (List.map f) := by
  have ht : ∀ s : List A, (s.map f).tails = s.tails.map (List.map f) := by
    intro s
    induction s with
    | nil => rfl
    | cons x s ih => simp [ih]
  unfold wordGroups
  rw [List.map_filterMap, ht, List.filterMap_map]
  congr 1
  funext t
  simp only [Function.comp_apply, List.length_map]
  split <;> simp

theorem wordGroups_windows (n : Nat) (s : List Nat) : wordGroups n s = windows n s := rfl

theorem mapWords_total {get : Bytes → Except Err Nat} {id : Bytes → Nat} (h : ∀ w, get w = .ok (id w)) (ws : List Bytes) :
    mapWords get ws = .ok (ws.map id) := by
  induction ws with
  | nil => rfl
  | cons w ws ih => simp [mapWords, h, ih]

/-- The words of a line, if there are any. -/
def askedWords (lower : Char → Char) (a : Alphabet) (l : List Char) : Option (List (List Char)) :=
  if maximalRuns (fun x => a.has x.toNat) (trim ' ' (l.map lower)) = [] then none
  else some (maximalRuns (fun x => a.has x.toNat) (trim ' ' (l.map lower)))

/-- **C93** `lm eval` on a model trained on a corpus (C63), from the sentences of the corpus and the bytes of standard input to
what is printed: for every line with words, in order, its words and the scores that are added up — the scores (C44) of the groups of
`order` consecutive words of the line between the start and the end symbol, computed from the numbers of occurrences in the
corpus. The command always starts, and ends without an error. -/
theorem C93_lm {start fin : List Char} {order : Nat} {corpus : List (List (List Char))} (hT : Training start fin order corpus)
    {bwords : List Bytes} {data : Bytes} (hm : StoredModel start fin order corpus bwords data)
    {lower : Nat → Nat} {lc : Char → Char} (hlc : ∀ x : Char, lower x.toNat = (lc x).toNat) {a : Alphabet}
    {stdin : Reader} {lines : List (List Char)} (hin : Typed stdin lines) :
    (∃ out e, LMEval lower a bwords data order (utf8 start) (utf8 fin) stdin out e) ∧
    ∀ out e, LMEval lower a bwords data order (utf8 start) (utf8 fin) stdin out e →
      e = none ∧ Complete (askedWords lc a) (fun ws x => x.1 = ws.map utf8 ∧
        List.Forall₂ (PrefixScore (wordCount start fin corpus) (corpusTokens (corpus.map fun s => s.map utf8)))
          (wordGroups order (start :: (ws ++ [fin]))) x.2) lines out := by
  obtain ⟨words, rfl, w1, w2, w3, w4, lm, get, id, files, startID, r1, r2, r3, rfl, r5, r6, ⟨vs, fin', g1, rfl, rfl⟩, r8, r9⟩ := stored_retrieved hT hm
  have hone := hT.order2
  have hfne : files ≠ [] := by rintro rfl; simp at r6; omega
  have htokens : ∀ l : List Char, queryWords lower a (utf8 l) = (maximalRuns (fun x => a.has x.toNat) (trim ' ' (l.map lc))).map utf8 := by
    intro l
    unfold queryWords
    rw [C38_lm_words a lower lc hlc l]
  obtain ⟨vs', h61a, f, hf, h61⟩ := C61_sentence r5 hfne
  rw [g1] at h61a; cases h61a
  obtain ⟨vs', h44a, h44⟩ := C44_score_partial r5 hfne
  rw [g1] at h44a; cases h44a
  have hscore : ∀ ws : List (List Char), scoreSentence ⟨vs, files.length, id (utf8 start), id (utf8 fin)⟩ get (ws.map utf8) =
      .ok ((wordGroups order (start :: (ws ++ [fin]))).map fun g => f (g.map fun w => id (utf8 w))) := by
    intro ws
    unfold scoreSentence
    rw [mapWords_total fun w => (r2 w).1]
    simp only
    rw [h61 _ _ _ (r2 _).2 (r2 _).2 (by simp only [List.mem_map]; rintro x ⟨_, _, rfl⟩; exact (r2 _).2), ← wordGroups_windows, r6]
    have : id (utf8 start) :: (List.map id (List.map utf8 ws) ++ [id (utf8 fin)]) = (start :: (ws ++ [fin])).map fun w => id (utf8 w) := by
      simp [Function.comp_def]
    rw [this, map_wordGroups, List.map_map]
    rfl
  constructor
  · obtain ⟨out, e, h⟩ := session_exists (ask := ScoreAsk (queryWords lower a) ⟨vs, files.length, id (utf8 start), id (utf8 fin)⟩ get) hin (by
      intro l _
      by_cases h : queryWords lower a (utf8 l) = []
      · exact ⟨_, .blank h⟩
      · exact ⟨_, .score h⟩)
    exact ⟨out, e, .session r1 h⟩
  · intro out e h
    cases h with
    | refused h => rw [r1] at h; cases h
    | session h hs =>
      rw [r1] at h; cases h
      refine session_complete hin ?_ hs
      intro l hl r hr
      unfold Reply askedWords
      cases hr with
      | blank hb =>
        rw [htokens] at hb
        exact ⟨none, rfl, by rw [if_pos (List.map_eq_nil_iff.1 hb)]⟩
      | score hb =>
        rw [htokens] at hb ⊢
        rw [hscore]
        refine ⟨some _, rfl, ?_⟩
        rw [if_neg (fun h => hb (by rw [h]; rfl))]
        refine ⟨_, rfl, rfl, ?_⟩
        rw [List.forall₂_map_right_iff, List.forall₂_same]
        intro g hg
        have hglen : g.length = order := by
          obtain ⟨t, _, ht⟩ := List.mem_filterMap.1 hg
          split at ht
          · cases ht; simpa using ‹_›
          · cases ht
        have hgl : (g.map fun w => id (utf8 w)).length = files.length := by rw [List.length_map, hglen, r6]
        have hgx : ∀ x ∈ g.map fun w => id (utf8 w), x < 2 ^ 32 := by
          simp only [List.mem_map]; rintro x ⟨_, _, rfl⟩; exact (r2 _).2
        have hgne : (g.map fun w => id (utf8 w)) ≠ [] := by
          intro h; rw [h] at hgl; simp at hgl; omega
        have hcount : ∀ j, 1 ≤ j → j ≤ g.length → gramCount files ((g.map fun w => id (utf8 w)).take j) = wordCount start fin corpus (g.take j) := by
          intro j hj1 hj2
          rw [← List.map_take]
          refine r8 _ ?_ ?_
          · intro h
            have := congrArg List.length h
            rw [List.length_take, List.length_nil] at this
            omega
          · rw [List.length_take]; omega
        obtain ⟨s1, s2⟩ := h44 _ hgne (by omega) hgx
        have hfs := hf _ hgl hgx
        rw [hfs] at s1 s2
        rw [List.length_map] at s1 s2
        constructor
        · intro j hj1 hj2 hpos hz
          have := s1 j hj1 hj2 (by rw [hcount j hj1 hj2]; exact hpos) (fun i h1 h2 => by rw [hcount i (by omega) h2]; exact hz i h1 h2)
          injection this with this
          rw [this, hcount j hj1 hj2]
          congr 1
          unfold contextCount
          by_cases hj : j = 1
          · subst hj
            rw [if_pos rfl, if_pos (by simp), r9]
          · rw [if_neg hj, if_neg ?_, hcount _ (by omega) (by omega)]
            intro h
            have := congrArg List.length h
            rw [List.length_take, List.length_map, List.length_nil] at this
            omega
        · intro hz
          have := s2 (fun j hj1 hj2 => by rw [hcount j hj1 hj2]; exact hz j hj1 hj2)
          injection this

/-! ### spellchecker eval -/

/-- A line of `spellchecker eval` asks if it is not empty. -/
def askedLine (l : List Char) : Option (List Char) := if l = [] then none else some l

section
variable {start fin : List Char} {order : Nat} {corpus : List (List (List Char))} {bwords : List Bytes} {data : Bytes} {ρ : Roaring} {G : Gob}
  {iorder : Nat → TermMap → TermMap} {sd sh : Bytes → List Bytes} {msort : List (PList ρ) → List (PList ρ)} {lower : Nat → Nat}
  {asort : List Alphabet → List Alphabet} {d : TokenConf} {c : WordConf} {name : String} {a : Alphabet}
  (hT : Training start fin order corpus) (hm : StoredModel start fin order corpus bwords data)
  (L : ρ.Lawful) (LG : G.Lawful) (ho : ∀ i m, (iorder i m).Perm m) (hsd : ∀ b, (sd b).flatten = b)
  (hsh : ∀ b, (sh b).flatten = b) (hs : ∀ r, (msort r).Perm r) (hdc : Describes lower asort d c)
  (hI : Indexable c fun w => wordCount start fin corpus [w])
  (hsize : ∀ b hd, indexData ρ iorder (suggestTokenizer lower asort d) (ramDict bwords) = .ok (b, hd) → b.length < 2 ^ 32)

/-- The corrections (C71) of a line: none for a line without words; the corrections of its last word, given the words
before it. -/
def LineCorrected (start fin : List Char) (order : Nat) (corpus : List (List (List Char))) (c : WordConf) (a : Alphabet) (l : List Char)
    (answer : List Bytes) : Prop :=
  let known := fun w => wordCount start fin corpus [w] ≠ 0
  (maximalRuns (fun x => a.has x.toNat) (trim ' ' (l.map c.lower)) = [] → answer = []) ∧
  (∀ last, maximalRuns (fun x => a.has x.toNat) (trim ' ' (l.map c.lower)) = [last] → ∃ ws x y, answer = ws.map utf8 ∧
    FirstWordCorrections c known (fun w => wordCount start fin corpus [w]) last (1 / 2) 5 ws x y) ∧
  ∀ seq last, seq ≠ [] → maximalRuns (fun x => a.has x.toNat) (trim ' ' (l.map c.lower)) = seq ++ [last] → ∃ ws, answer = ws.map utf8 ∧
    Corrections c known (fun w => wordCount start fin corpus (contextWords order start seq ++ [w])) last (1 / 2) 5 ws

include hT hm L LG ho hsd hsh hs hdc hI hsize in
/-- **C93** `spellchecker eval`, from the sentences of the corpus and the bytes of standard input to what is printed: for every
line that is not empty, in order, the corrections (at most 6) of its last word. The command ends without an error.

Partial: lines with exactly `order` words before the last one are excluded (they are corrected with a wrong context, C52). -/
theorem C93_spellchecker_partial {stdin : Reader} {lines : List (List Char)} (hin : Typed stdin lines)
    (hlines : ∀ l ∈ lines, ∀ seq last, maximalRuns (fun x => a.has x.toNat) (trim ' ' (l.map c.lower)) = seq ++ [last] →
      GoodLast c last ∧ seq.length ≠ order)
    {val : LMScore → ℚ} (hval : AccurateLog val) {oob : Int} {out : List (Shown (List Bytes))} {e : Option Err}
    (h : PredictEval (f64Ops oob) val
      (buildSpellChecker ρ G iorder sd sh msort lower asort d name a bwords data order (utf8 start) (utf8 fin)) stdin out e) :
    e = none ∧ Complete askedLine (LineCorrected start fin order corpus c a) lines out := by
  obtain ⟨sc, hb, htok, _⟩ := spell_built (name := name) (a := a) hT hm L LG ho hsd hsh hs hdc hI hsize
  rw [hb] at h
  cases h with
  | refused h => cases h
  | session h hses =>
    cases h
    refine session_complete hin ?_ hses
    intro l hl r hr
    unfold Reply askedLine
    cases hr with
    | blank hb =>
      have : l = [] := utf8_injective (hb.trans rfl)
      exact ⟨none, rfl, by rw [if_pos this]⟩
    | predict hne hr =>
      rename_i r
      have hl0 : l ≠ [] := by rintro rfl; exact hne rfl
      rw [if_neg hl0]
      suffices h : ∃ ans, r = .ok ans ∧ LineCorrected start fin order corpus c a l ans by
        obtain ⟨ans, rfl, h⟩ := h
        exact ⟨some ans, rfl, ans, rfl, h⟩
      rcases List.eq_nil_or_concat (maximalRuns (fun x => a.has x.toNat) (trim ' ' (l.map c.lower))) with hw | ⟨seq, last, hw⟩
      · have ht : sc.tokenize (utf8 l) = [] := by rw [htok, hw]; rfl
        cases hr with
        | noTokens => exact ⟨[], rfl, fun _ => rfl, fun last h => by rw [hw] at h; simp at h, fun seq last _ h => by rw [hw] at h; simp at h⟩
        | scorerErr h | autoErr h | enough h | fuzzyErr h | fuzzy h => rw [ht] at h; simp at h
      · rw [List.concat_eq_append] at hw
        obtain ⟨h1, h2⟩ := hlines l hl seq last hw
        have := C71_corrections_partial hT hm L LG ho hsd hsh hs hdc hI hsize hb hw h1 (α := 1 / 2) (by norm_num) (by norm_num)
          (K := 5) (by norm_num) hval hr
        have hhalf : (((1 / 2 : ℚ)) : ℝ) = 1 / 2 := by norm_num
        rw [hhalf] at this
        by_cases hseq : seq = []
        · subst hseq
          obtain ⟨ws, x, y, rfl, hf⟩ := this.1 rfl
          refine ⟨_, rfl, fun h => by rw [hw] at h; simp at h, ?_, ?_⟩
          · intro last' h
            rw [hw] at h
            simp only [List.nil_append, List.cons.injEq, and_true] at h
            subst h
            exact ⟨ws, x, y, rfl, hf⟩
          · intro seq' last' hne' h
            rw [hw] at h
            have := congrArg List.length h
            simp at this
            exact absurd this hne'
        · obtain ⟨ws, rfl, hf⟩ := this.2 hseq h2
          refine ⟨_, rfl, fun h => by rw [hw] at h; simp at h, ?_, ?_⟩
          · intro last' h
            rw [hw] at h
            have := congrArg List.length h
            simp at this
            exact absurd this hseq
          · intro seq' last' _ h
            rw [hw] at h
            obtain ⟨h3, h4⟩ := List.append_inj' h rfl
            simp only [List.cons.injEq, and_true] at h4
            rw [← h3, ← h4]
            exact ⟨ws, rfl, hf⟩

include hT hm L LG ho hsd hsh hs hdc hI hsize in
/-- **C93** (partial: for the last word of every line some known word must have at least `MinY(1/2, …)` n-grams, see C30) …
and the command does answer all lines. -/
theorem C93_spellchecker_answers_partial {stdin : Reader} {lines : List (List Char)} (hin : Typed stdin lines) {val : LMScore → ℚ} {oob : Int}
    (hlines : ∀ l ∈ lines, ∀ seq last, maximalRuns (fun x => a.has x.toNat) (trim ' ' (l.map c.lower)) = seq ++ [last] →
      GoodLast c last ∧ ∃ w, wordCount start fin corpus [w] ≠ 0 ∧
        (cosineMetric (f64Ops oob)).minY (1 / 2) (c.grams (c.wordText last)).length ≤ (c.grams (c.wordText w)).length) :
    ∃ out e, PredictEval (f64Ops oob) val
      (buildSpellChecker ρ G iorder sd sh msort lower asort d name a bwords data order (utf8 start) (utf8 fin)) stdin out e := by
  obtain ⟨sc, hb, htok, _⟩ := spell_built (name := name) (a := a) hT hm L LG ho hsd hsh hs hdc hI hsize
  obtain ⟨out, e, h⟩ := session_exists (ask := PredictAsk (f64Ops oob) val sc) hin (by
    intro l hl
    by_cases hne : utf8 l = []
    · exact ⟨_, .blank hne⟩
    rcases List.eq_nil_or_concat (maximalRuns (fun x => a.has x.toNat) (trim ' ' (l.map c.lower))) with hw | ⟨seq, last, hw⟩
    · exact ⟨_, .predict hne (.noTokens (by rw [htok, hw]; rfl))⟩
    · rw [List.concat_eq_append] at hw
      obtain ⟨g1, g2⟩ := hlines l hl seq last hw
      obtain ⟨_, _, _, ws, h⟩ := C71_answers_partial hT hm L LG ho hsd hsh hs hdc hI hsize hb hw g1 (α := 1 / 2) (by norm_num)
        (by norm_num) (K := 5) (by norm_num) g2
      exact ⟨_, .predict hne h⟩)
  exact ⟨out, e, .session hb h⟩

end

end Verif.Props
