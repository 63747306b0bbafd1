import Verif.Model.IndexerJob
import Verif.Proofs.ScannerAny
import Verif.Props.Reindex
import Verif.Props.Scanner
/-!
Property theorems C75: the command `suggest indexer` (cmd/suggest/cmd/indexer.go), from the sources of the descriptions to what a
service loads from the disc afterwards.

`IndexerRun ρ G order splitDocs splitHeader tok flag ds ops e` — the command with the descriptions `ds` and `--dict=flag` has the
effects `ops` and returns `e` (`none`: success). `ops.foldl applyAt w` is the disc afterwards if it was `w` before (by the place
of a description: output path and name). `openDisc G name s` is what a service publishes when it loads the description.
-/
namespace Verif.Props
open Verif Spec Verif.WordSearch Verif.Scan

/-! ### The cdb dictionary holds the lines -/

theorem leNat_leKey {n : Nat} (h : n < 2 ^ 32) : leNat (leKey n) = n := by
  simp only [leNat, leKey, List.getD_cons_zero, List.getD_cons_succ, UInt8.toNat_ofNat']
  omega

theorem leKey_inj {m n : Nat} (hm : m < 2 ^ 32) (hn : n < 2 ^ 32) (h : leKey m = leKey n) : m = n := by
  rw [← leNat_leKey hm, h, leNat_leKey hn]

/-- **C75** The dictionary on disc holds the lines of the source under their numbers, in order, as the dictionary in RAM does … -/
theorem C75_dictionary {lines : List (List UInt8)} (h : lines.length ≤ 2 ^ 32) : (cdbRecords lines).pairs = ramDict lines := by
  unfold cdbRecords CDB.pairs ramDict
  rw [List.map_map]
  apply List.map_congr_left
  intro x hx
  have : x.2 < 2 ^ 32 := by
    have := List.snd_lt_of_mem_zipIdx hx
    omega
  simp only [Function.comp, Nat.mod_eq_of_lt this, leNat_leKey this]

theorem find_congr {α : Type} {p q : α → Bool} : ∀ (l : List α), (∀ e ∈ l, p e = q e) → l.find? p = l.find? q := by
  intro l
  induction l with
  | nil => intro _; rfl
  | cons a l ih =>
    intro hl
    rw [List.find?_cons, List.find?_cons, ih fun e he => hl e (by simp [he]), hl a (by simp)]

theorem get_pairs {c : CDB} {k : Nat} (h : ∀ e ∈ c, (e.1 == leKey k) = (leNat e.1 == k)) : c.get k = c.pairs.get k := by
  unfold CDB.get Dict.get CDB.pairs
  rw [List.find?_map, find_congr _ h]
  have : ((fun e : Nat × List UInt8 => e.1 == k) ∘ fun e : List UInt8 × List UInt8 => (leNat e.1, e.2)) = fun e => leNat e.1 == k := rfl
  rw [this]
  cases c.find? fun e => leNat e.1 == k with
  | none => rw [Option.map_none]
  | some e => rw [Option.map_some]

theorem key_eq {x k : Nat} (hx : x < 2 ^ 32) (hk : k < 2 ^ 32) : (leKey x == leKey k) = (x == k) := by
  by_cases he : x = k
  · rw [he, beq_self_eq_true, beq_self_eq_true]
  · have : leKey x ≠ leKey k := fun h => he (leKey_inj hx hk h)
    rw [beq_eq_false_iff_ne.2 he, beq_eq_false_iff_ne.2 this]

/-- **C75** … and looking up a number gives the line. -/
theorem C75_dictionary_get {lines : List (List UInt8)} (h : lines.length ≤ 2 ^ 32) {k : Nat} (hk : k < 2 ^ 32) :
    (cdbRecords lines).get k = lines.getD k nilValue := by
  rw [← C54_get, ← C75_dictionary h]
  apply get_pairs
  intro e he
  obtain ⟨x, hx, rfl⟩ := List.mem_map.1 he
  have hx2 : x.2 < 2 ^ 32 := by
    have := List.snd_lt_of_mem_zipIdx hx
    omega
  rw [Nat.mod_eq_of_lt hx2, leNat_leKey hx2, key_eq hx2 hk]

section
variable {ρ : Roaring} {G : Gob} {order : Nat → TermMap → TermMap} {splitDocs splitHeader : List UInt8 → List (List UInt8)}
  {tok : IndexDesc → Tokenizer} {flag : String}

/-- The description is to be indexed: `--dict` is not given or names it. -/
def Wanted (flag : String) (d : IndexDesc) : Prop := flag = "" ∨ flag = d.name

theorem chosen_iff {flag : String} {d : IndexDesc} : chosen flag d = true ↔ Wanted flag d := by
  simp [chosen, Wanted]

/-! ### The effects stay at the place of the description -/

theorem applyAt_other {p : String} : ∀ (ops : List (String × JobOp)) (w : String → DiscState), (∀ o ∈ ops, o.1 ≠ p) →
    ops.foldl applyAt w p = w p := by
  intro ops
  induction ops with
  | nil => intro w _; rfl
  | cons o ops ih =>
    intro w h
    rw [List.foldl_cons, ih _ fun o ho => h o (by simp [ho])]
    have := h o (by simp)
    simp [applyAt, Ne.symm this]

theorem applyAt_same {p : String} : ∀ (job : List JobOp) (w : String → DiscState),
    (job.map fun o => (p, o)).foldl applyAt w p = job.foldl applyJob (w p) := by
  intro job
  induction job with
  | nil => intro w; rfl
  | cons o job ih =>
    intro w
    rw [List.map_cons, List.foldl_cons, ih, List.foldl_cons]
    simp [applyAt]

theorem run_places {ds : List IndexDesc} {ops : List (String × JobOp)} {e : Option Err}
    (h : IndexerRun ρ G order splitDocs splitHeader tok flag ds ops e) :
    ∀ o ∈ ops, ∃ d ∈ ds, chosen flag d = true ∧ d.disc = true ∧ o.1 = d.place := by
  have hjob : ∀ {d : IndexDesc} {job : List JobOp} {e : Option Err}, IndexJob ρ G order splitDocs splitHeader (tok d) d job e →
      ∀ o ∈ job, d.disc = true := by
    intro d job e hj o ho
    cases hj <;> simp_all
  induction h with
  | nil => simp
  | skip _ _ ih =>
    intro o ho
    obtain ⟨d, hd, h⟩ := ih o ho
    exact ⟨d, by simp [hd], h⟩
  | fail hc hj =>
    intro o ho
    obtain ⟨x, hx, rfl⟩ := List.mem_map.1 ho
    exact ⟨_, by simp, hc, hjob hj x hx, rfl⟩
  | next hc hj _ ih =>
    intro o ho
    rcases List.mem_append.1 ho with ho | ho
    · obtain ⟨x, hx, rfl⟩ := List.mem_map.1 ho
      exact ⟨_, by simp, hc, hjob hj x hx, rfl⟩
    · obtain ⟨d, hd, h⟩ := ih o ho
      exact ⟨d, by simp [hd], h⟩

/-- **C75** Whatever happens — also if the command fails or is interrupted —, only the files of the chosen DISC descriptions
are touched. -/
theorem C75_others_untouched {ds : List IndexDesc} {ops : List (String × JobOp)} {e : Option Err}
    (h : IndexerRun ρ G order splitDocs splitHeader tok flag ds ops e) {p : String}
    (hp : ∀ d ∈ ds, Wanted flag d → d.disc = true → d.place ≠ p) (w : String → DiscState)
    {done : List (String × JobOp)} (hdone : done <+: ops) : done.foldl applyAt w p = w p := by
  apply applyAt_other
  intro o ho
  obtain ⟨d, hd, h1, h2, h3⟩ := run_places h o (hdone.subset ho)
  rw [h3]
  exact hp d hd (chosen_iff.1 h1) h2

/-! ### Success -/

/-- What a successful job for `d` leaves at its place, if `s` was there before: a service that loads the description publishes
the lines of the source as its dictionary and the index of these lines. -/
def Reindexed (ρ : Roaring) (G : Gob) (order : Nat → TermMap → TermMap) (splitDocs splitHeader : List UInt8 → List (List UInt8))
    (tok : IndexDesc → Tokenizer) (d : IndexDesc) (s s' : DiscState) : Prop :=
  ∃ r, d.source = some r ∧ r.last = .eof ∧
    let lines := Spec.lines r.chunks.flatten
    (lines.length ≤ 2 ^ 32 → ∃ fs, indexJobFiles ρ G order splitDocs splitHeader d.name (tok d) (ramDict lines) s.files = .ok fs ∧
      openDisc G d.name s' = (buildFS G d.name fs).map fun i => (i, ramDict lines))

theorem job_done {d : IndexDesc} {job : List JobOp} (hr : ∀ r, d.source = some r → ∀ c ∈ r.chunks, c ≠ []) (hd : d.disc = true)
    (h : IndexJob ρ G order splitDocs splitHeader (tok d) d job none) (s : DiscState) :
    Reindexed ρ G order splitDocs splitHeader tok d s (job.foldl applyJob s) := by
  cases h with
  | skipped h => rw [hd] at h; cases h
  | done _ hs hy hj =>
    obtain ⟨h1, h2⟩ := yields_no_error scanLines_ok (hr _ hs) hy
    refine ⟨_, hs, h2, ?_⟩
    subst h1
    intro _ hl
    rw [C75_dictionary hl] at hj
    exact C69_completed hj s

/-- **C75** The command succeeds: for every chosen DISC description, a service that loads it afterwards publishes the lines of
the source and the index of these lines (no two descriptions write to the same place). -/
theorem C75_success {ds : List IndexDesc} {ops : List (String × JobOp)}
    (hr : ∀ d ∈ ds, ∀ r, d.source = some r → ∀ c ∈ r.chunks, c ≠ []) (hp : ds.Pairwise fun a b => a.place ≠ b.place)
    (h : IndexerRun ρ G order splitDocs splitHeader tok flag ds ops none) (w : String → DiscState)
    {d : IndexDesc} (hd : d ∈ ds) (hw : Wanted flag d) (hdisc : d.disc = true) :
    Reindexed ρ G order splitDocs splitHeader tok d (w d.place) (ops.foldl applyAt w d.place) := by
  have hc := chosen_iff.2 hw
  generalize he : (none : Option Err) = e at h
  induction h generalizing w with
  | nil => cases hd
  | @skip a ds ops e hca hrun ih =>
    subst he
    rcases List.mem_cons.1 hd with rfl | hd
    · rw [hca] at hc; cases hc
    · exact ih (fun d hd => hr d (by simp [hd])) (List.pairwise_cons.1 hp).2 w hd rfl
  | fail _ _ => cases he
  | @next a ds job ops e hca hj hrun ih =>
    subst he
    obtain ⟨hp1, hp2⟩ := List.pairwise_cons.1 hp
    rw [List.foldl_append]
    rcases List.mem_cons.1 hd with rfl | hd
    · rw [applyAt_other ops _ (fun o ho => ?_), applyAt_same]
      · exact job_done (hr d (by simp)) hdisc hj _
      · obtain ⟨b, hb, _, _, e⟩ := run_places hrun o ho
        rw [e]
        exact (hp1 b hb).symm
    · have := ih (fun d hd => hr d (by simp [hd])) hp2 ((job.map fun o => (a.place, o)).foldl applyAt w) hd rfl
      rw [applyAt_other (job.map _) w (fun o ho => ?_)] at this
      · exact this
      · obtain ⟨x, _, rfl⟩ := List.mem_map.1 ho
        exact hp1 d hd

/-! ### Every run ends -/

theorem job_ends (d : IndexDesc) (hr : ∀ r, d.source = some r → ∀ c ∈ r.chunks, c ≠ []) :
    ∃ job e, IndexJob ρ G order splitDocs splitHeader (tok d) d job e := by
  cases hd : d.disc with
  | false => exact ⟨_, _, .skipped hd⟩
  | true =>
    cases hs : d.source with
    | none => exact ⟨_, _, .noSource .eof hd hs⟩
    | some r =>
      rcases yields_any scanLines_ok (hr r hs) with h | ⟨ts, _, h⟩
      · by_cases he : r.last = .eof
        · rw [if_pos he] at h
          cases hj : indexJobOps ρ G order splitDocs splitHeader d.name (tok d) (cdbRecords (Spec.lines r.chunks.flatten)).pairs with
          | error e => exact ⟨_, _, .indexFails hd hs h hj⟩
          | ok ops => exact ⟨_, _, .done hd hs h hj⟩
        · rw [if_neg he] at h
          exact ⟨_, _, .scanFails hd hs h⟩
      · exact ⟨_, _, .scanFails hd hs h⟩

/-- **C75** Every run of the command ends, with success or an error. -/
theorem C75_ends (ds : List IndexDesc) (hr : ∀ d ∈ ds, ∀ r, d.source = some r → ∀ c ∈ r.chunks, c ≠ []) :
    ∃ ops e, IndexerRun ρ G order splitDocs splitHeader tok flag ds ops e := by
  induction ds with
  | nil => exact ⟨_, _, .nil⟩
  | cons d ds ih =>
    obtain ⟨ops, e, h⟩ := ih fun d hd => hr d (by simp [hd])
    cases hc : chosen flag d with
    | false => exact ⟨_, _, .skip hc h⟩
    | true =>
      obtain ⟨job, e', hj⟩ := job_ends (ρ := ρ) (G := G) (order := order) (splitDocs := splitDocs) (splitHeader := splitHeader)
        (tok := tok) d (hr d (by simp))
      cases e' with
      | none => exact ⟨_, _, .next hc hj h⟩
      | some e' => exact ⟨_, _, .fail hc hj⟩

/-! ### Failure -/

theorem run_fails {ds : List IndexDesc} {ops : List (String × JobOp)} {e : Err}
    (h : IndexerRun ρ G order splitDocs splitHeader tok flag ds ops (some e)) :
    ∃ before d after ops' job, ds = before ++ d :: after ∧ chosen flag d = true ∧
      IndexerRun ρ G order splitDocs splitHeader tok flag before ops' none ∧
      IndexJob ρ G order splitDocs splitHeader (tok d) d job (some e) ∧ ops = ops' ++ job.map fun o => (d.place, o) := by
  generalize he : some e = e' at h
  induction h with
  | nil => cases he
  | @skip a ds ops e' hca hrun ih =>
    obtain ⟨b, d, af, o, j, rfl, h2, h3, h4, h5⟩ := ih he
    exact ⟨a :: b, d, af, o, j, rfl, h2, .skip hca h3, h4, h5⟩
  | @fail a ds job e' hca hj =>
    cases he
    exact ⟨[], a, ds, [], job, rfl, hca, .nil, hj, rfl⟩
  | @next a ds job ops e' hca hj hrun ih =>
    obtain ⟨b, d, af, o, j, rfl, h2, h3, h4, rfl⟩ := ih he
    exact ⟨a :: b, d, af, _, j, rfl, h2, .next hca hj h3, h4, by rw [List.append_assoc]⟩

/-- **C75** (partial) The command fails at a description: those before it are done as after a success, those behind it are
untouched, and itself is untouched if its source could not be opened.

Missing: the description it failed at is untouched in any case. That is false, see `C75_long_line_destroys` and
`C75_bad_first_line_wrong_words`. -/
theorem C75_failure_partial {ds : List IndexDesc} {ops : List (String × JobOp)} {e : Err}
    (hr : ∀ d ∈ ds, ∀ r, d.source = some r → ∀ c ∈ r.chunks, c ≠ []) (hp : ds.Pairwise fun a b => a.place ≠ b.place)
    (h : IndexerRun ρ G order splitDocs splitHeader tok flag ds ops (some e)) (w : String → DiscState) :
    ∃ before d after, ds = before ++ d :: after ∧ Wanted flag d ∧ d.disc = true ∧
      (∀ b ∈ before, Wanted flag b → b.disc = true →
        Reindexed ρ G order splitDocs splitHeader tok b (w b.place) (ops.foldl applyAt w b.place)) ∧
      (d.source = none → ops.foldl applyAt w d.place = w d.place) ∧
      (∀ a ∈ after, ops.foldl applyAt w a.place = w a.place) := by
  obtain ⟨before, d, after, ops', job, rfl, h2, h3, h4, rfl⟩ := run_fails h
  obtain ⟨p1, p2, p3⟩ := List.pairwise_append.1 hp
  obtain ⟨p4, _⟩ := List.pairwise_cons.1 p2
  have hpl := run_places h3
  refine ⟨before, d, after, rfl, chosen_iff.1 h2, by cases h4 <;> assumption, ?_, ?_, ?_⟩
  · intro b hb hcb hdb
    have := C75_success (fun d hd => hr d (by simp [hd])) p1 h3 w hb hcb hdb
    rw [List.foldl_append, applyAt_other (job.map _) _ (fun o ho => ?_)]
    · exact this
    · obtain ⟨x, _, rfl⟩ := List.mem_map.1 ho
      exact (p3 b hb d (by simp)).symm
  · intro hs
    have hj : job = [] := by cases h4 <;> simp_all
    subst hj
    rw [List.map_nil, List.append_nil]
    apply applyAt_other
    intro o ho
    obtain ⟨b, hb, _, _, e⟩ := hpl o ho
    rw [e]
    exact p3 b hb d (by simp)
  · intro a ha
    apply applyAt_other
    intro o ho
    rcases List.mem_append.1 ho with ho | ho
    · obtain ⟨b, hb, _, _, e⟩ := hpl o ho
      rw [e]
      exact p3 b hb a (by simp [ha])
    · obtain ⟨x, _, rfl⟩ := List.mem_map.1 ho
      exact p4 a ha

/-- **C75** is false: a source with a line of more than 65536 bytes, or one that cannot be read to its end, makes the command
fail after the old dictionary has been truncated; the description cannot be loaded any more. -/
theorem C75_long_line_destroys {d : IndexDesc} {r : Reader} (hd : d.disc = true) (hs : d.source = some r)
    (hc : Wanted flag d) (hr : ∀ c ∈ r.chunks, c ≠ [])
    (hbad : r.last ≠ .eof ∨ ∃ (pre : List (List UInt8)) (long rest : List UInt8),
      r.chunks.flatten = (pre.flatMap fun l => l ++ [10]) ++ (long ++ rest) ∧
      (∀ l ∈ pre, 10 ∉ l ∧ l.length < 65536) ∧ 10 ∉ long ∧ 65536 < long.length) (ds : List IndexDesc) :
    ∃ ops e, IndexerRun ρ G order splitDocs splitHeader tok flag (d :: ds) ops (some e) ∧
      ∀ w : String → DiscState, ∃ e', openDisc G d.name (ops.foldl applyAt w d.place) = .error e' := by
  have hy : ∃ ts e, (newScanner r).Yields scanLines ts (some e) := by
    rcases hbad with hl | ⟨pre, long, rest, h1, h2, h3, h4⟩
    · rcases yields_any scanLines_ok hr with h | ⟨ts, _, h⟩
      · rw [if_neg hl] at h; exact ⟨_, _, h⟩
      · exact ⟨_, _, h⟩
    · exact ⟨_, _, yields_trunc scanLines_trunc hr ⟨pre, long, rest, h1, rfl, h2, h3, h4⟩⟩
  obtain ⟨ts, e, hy⟩ := hy
  refine ⟨_, e, .fail (chosen_iff.2 hc) (.scanFails hd hs hy), fun w => ?_⟩
  rw [applyAt_same]
  simp only [List.foldl_cons, List.foldl_nil, applyJob, openDisc, addOutcome]
  exact ⟨_, rfl⟩

end

/-! ### The first line -/

/-- A source whose first line is empty: "", "apple". -/
def emptyFirst : Reader := ⟨[[10, 97, 112, 112, 108, 101, 10]], .eof, false⟩

theorem emptyFirst_lines : Spec.lines emptyFirst.chunks.flatten = [[], utf8 "apple".toList] := by decide +kernel

/-- **C75** is false: the new source begins with an empty line. The command panics when it builds the index — the new dictionary
has been written, the old index is still there. A service that loads the description answers the query "apple" with the empty
word, with the score of "apple" (1), and not with "apple", although both sources contain "apple". -/
theorem C75_bad_first_line_wrong_words {G : Gob} (LG : G.Lawful) {flag : String} (d : IndexDesc) (hd : d.disc = true) (hs : d.source = some emptyFirst)
    (hc : Wanted flag d) {order : Nat → TermMap → TermMap} {splitDocs splitHeader : List UInt8 → List (List UInt8)} :
    ∃ (ρ : Roaring) (_ : ρ.Lawful) (w : String → DiscState) (oi : OpenIndex) (ops : List (String × JobOp)) (e : Err),
      openDisc G d.name (w d.place) = .ok (oi, ramDict [utf8 "apple".toList]) ∧
      IndexerRun ρ G order splitDocs splitHeader (fun _ => suggestTokenizer asciiLower id tinyConf) flag [d] ops (some e) ∧
      openDisc G d.name (ops.foldl applyAt w d.place) = .ok (oi, ramDict [[], utf8 "apple".toList]) ∧
      (∃ r, ServiceSuggest (f64Ops 0) (jaccardMetric (f64Ops 0)) ρ id (suggestTokenizer asciiLower id tinyConf) oi
        (ramDict [[], utf8 "apple".toList]) (utf8 "apple".toList) (1 / 2) 5 r) ∧
      ∀ r, ServiceSuggest (f64Ops 0) (jaccardMetric (f64Ops 0)) ρ id (suggestTokenizer asciiLower id tinyConf) oi
          (ramDict [[], utf8 "apple".toList]) (utf8 "apple".toList) (1 / 2) 5 r →
        ∃ score : ℚ, |(score : ℝ) - 1| ≤ 1 / 2 ^ 50 ∧ r = .ok [(score, [])] := by
  obtain ⟨s, oi, hopen, hw⟩ := old_index LG d.name
  have hy : (newScanner emptyFirst).Yields scanLines [[], utf8 "apple".toList] none := by
    have := yields_new scanLines_ok scanLines_fits (r := emptyFirst) (by decide)
      (by show ∀ l ∈ emptyFirst.chunks.flatten.splitOn 10, l.length < 65536; decide +kernel)
    rw [emptyFirst_lines] at this
    exact this
  have hdict : (cdbRecords [[], utf8 "apple".toList]).pairs = ramDict [[], utf8 "apple".toList] := C75_dictionary (by simp)
  have hfail : indexJobOps toyRoaring G order splitDocs splitHeader d.name (suggestTokenizer asciiLower id tinyConf)
      (cdbRecords [[], utf8 "apple".toList]).pairs = .error .panicMake := by
    rw [hdict]
    have := C67_first_word_panics tiny_describes [] ["apple".toList] (by decide +kernel) (faithful_of_clean (by decide +kernel))
      toyRoaring G order splitDocs splitHeader d.name
    unfold buildRAM at this
    unfold indexJobOps
    have e : ([] :: ["apple".toList] : List (List Char)).map utf8 = [[], utf8 "apple".toList] := by decide +kernel
    rw [e] at this
    cases hi : indexData toyRoaring order (suggestTokenizer asciiLower id tinyConf) (ramDict [[], utf8 "apple".toList]) with
    | error e => rw [hi] at this; cases this; rfl
    | ok p =>
      exfalso
      unfold indexData at hi
      simp only [ramDict, List.map_cons, List.zipIdx_cons, indexDict] at hi
      have h1 : suggestTokenizer asciiLower id tinyConf [] = .ok [] := by
        have := suggestTokens tiny_describes (w := []) (faithful_of_clean (by decide +kernel))
        have g : tinySpec.grams (tinySpec.wordText []) = [] := by decide +kernel
        rw [g] at this
        exact this
      rw [h1] at hi
      cases hi
  refine ⟨toyRoaring, toyLawful, fun _ => s, oi, _, .panicMake, hopen, .fail (chosen_iff.2 hc) (.indexFails hd hs hy hfail), ?_,
    mixture_answers LG hw _, ?_⟩
  · rw [applyAt_same, hdict]
    obtain ⟨dc, files⟩ := s
    cases dc with
    | none => simp [openDisc, addOutcome] at hopen
    | some d0 =>
      simp only [List.foldl_cons, List.foldl_nil, applyJob, openDisc, addOutcome] at hopen ⊢
      cases hb : buildFS G d.name files with
      | error e => rw [hb] at hopen; cases hopen
      | ok i => rw [hb] at hopen; cases hopen; rfl
  · intro r hr
    obtain ⟨score, h1, h2⟩ := mixture_word LG hw _ hr
    exact ⟨score, h1, h2⟩

/-! ### Examples -/

/-- Two descriptions; only the first is chosen with `--dict=a`. -/
def exampleDescs : List IndexDesc :=
  [⟨true, "a", "/idx/a", some ⟨[[97, 112, 112], [108, 101, 10]], .eof, true⟩⟩, ⟨true, "b", "/idx/b", none⟩]

/-- Non-vacuity: a run with `--dict=a` succeeds; without it, the run fails at the second description. -/
example {G : Gob} : (∃ ops, IndexerRun toyRoaring G (fun _ m => m) (fun b => [b]) (fun b => [b])
      (fun _ => suggestTokenizer asciiLower id tinyConf) "a" exampleDescs ops none) ∧
    (∃ ops e, IndexerRun toyRoaring G (fun _ m => m) (fun b => [b]) (fun b => [b])
      (fun _ => suggestTokenizer asciiLower id tinyConf) "" exampleDescs ops (some e)) ∧
    exampleDescs.Pairwise (fun a b => a.place ≠ b.place) ∧
    ∀ d ∈ exampleDescs, ∀ r, d.source = some r → ∀ c ∈ r.chunks, c ≠ [] := by
  obtain ⟨n, hn⟩ : ∃ n, reindexBytes oldWords = some n := ⟨5, by decide +kernel⟩
  obtain ⟨b, hd, _, he⟩ := reindex_data old_faithful hn
  have hr : ∀ d ∈ exampleDescs, ∀ r, d.source = some r → ∀ c ∈ r.chunks, c ≠ [] := by
    intro d hd r hs
    simp only [exampleDescs, List.mem_cons, List.not_mem_nil, or_false] at hd
    rcases hd with rfl | rfl
    · cases hs; decide
    · cases hs
  have hy : (newScanner ⟨[[97, 112, 112], [108, 101, 10]], .eof, true⟩).Yields scanLines (oldWords.map utf8) none := by
    have := yields_new scanLines_ok scanLines_fits (r := ⟨[[97, 112, 112], [108, 101, 10]], .eof, true⟩) (by decide)
      (by show ∀ l ∈ (([[97, 112, 112], [108, 101, 10]] : List (List UInt8)).flatten).splitOn 10, l.length < 65536; decide +kernel)
    have e : Spec.lines (([[97, 112, 112], [108, 101, 10]] : List (List UInt8)).flatten) = oldWords.map utf8 := by decide +kernel
    simp only at this
    rw [e] at this
    exact this
  obtain ⟨ops, hops⟩ : ∃ ops, indexJobOps toyRoaring G (fun _ m => m) (fun b => [b]) (fun b => [b]) "a"
      (suggestTokenizer asciiLower id tinyConf) (cdbRecords (oldWords.map utf8)).pairs = .ok ops := by
    rw [C75_dictionary (by decide)]
    unfold indexJobOps; rw [he]; exact ⟨_, rfl⟩
  refine ⟨⟨_, .next (by decide) (.done rfl rfl hy hops) (.skip (by decide) .nil)⟩,
    ⟨_, .eof, .next (by decide) (.done rfl rfl hy hops) (.fail (by decide) (.noSource _ rfl rfl))⟩, by simp [exampleDescs], hr⟩

end Verif.Props
