import Verif.Proofs.IndexCommit
import Verif.Props.PostingList
import Mathlib.Data.Countable.Basic
import Mathlib.Logic.Equiv.List
/-!
Property theorems C19–C24 (pkg/index: writer, reader, searcher; pkg/store: directories).

`postings docs c t` (Verif/Spec/Index.lean) — the ids, in order, of the documents with exactly `c` terms that contain
`t`. `order` — the iteration order of Go's maps (any reordering). `Writes ρ G order docs dw hw` — `dw`, `hw` are the
sequences of `Write` calls for the document list and the header (split in any way) when the documents are added
to a new writer and committed. Contracts of third-party code: `Roaring.Lawful`, `Gob.Lawful`.
-/
namespace Verif.Props
open Verif Spec

/-- The opened index shows, for every cardinality and term, exactly the posting lists `f`. -/
structure Shows (ρ : Roaring) (oi : OpenIndex) (f : Nat → String → List Nat) : Prop where
  absent : ∀ c, oi.table c = none ↔ ∀ t, f c t = []
  has : ∀ c tab, oi.table c = some tab → ∀ t, tab.has t = true ↔ f c t ≠ []
  missing : ∀ c tab, oi.table c = some tab → ∀ t, f c t = [] → tab.get oi.docs t = .ok none
  get : ∀ c tab, oi.table c = some tab → ∀ t, f c t ≠ [] → ∃ ctx, tab.get oi.docs t = .ok (some ctx) ∧
    ctx.listSize = (f c t).length ∧ ∀ stale, ∃ s, openPList ρ stale ctx = .ok s ∧ Opened s (f c t)

/-- Add the documents to a new writer and commit: the writes to the two files. -/
def Writes (ρ : Roaring) (G : Gob) (order : Nat → TermMap → TermMap) (docs : List Doc)
    (dw hw : List (List UInt8)) : Prop :=
  ∃ ix bytes h, addDocuments (docs.map fun d => (d.id, d.terms)) [] = .ok ix ∧
    commitData ρ order ix = .ok (bytes, h) ∧ dw.flatten = bytes ∧ hw.flatten = G.encode h

/-- The first document has a term (otherwise the writer panics, `C23_empty_first_panics`). -/
def FirstNonempty (docs : List Doc) : Prop := ∀ d, docs.head? = some d → d.terms ≠ []

theorem Shows.of_ok {ρ : Roaring} {L : ρ.Lawful} {oi : OpenIndex} {f : Nat → String → List Nat} {n : Nat}
    (h : IndexOk L oi f n) : Shows ρ oi f := by
  refine ⟨h.absent, h.has, fun c tab ht t h0 => ?_, fun c tab ht t hne => ?_⟩
  · have : ¬ tab.has t = true := fun hh => (h.has c tab ht t).1 hh h0
    unfold Table.get
    unfold Table.has at this
    cases e : tab t with
    | none => rfl
    | some x => rw [e] at this; simp at this
  · obtain ⟨ctx, h1, h2⟩ := h.get c tab ht t hne
    refine ⟨ctx, h1, ?_, fun stale => ?_⟩
    · exact h.listSize c tab ht t hne ctx h1
    · obtain ⟨s, e, hr⟩ := h2 stale
      exact ⟨s, e, fun ops => (PList.sim L).run hr ops⟩

section
variable {ρ : Roaring} (L : ρ.Lawful) {G : Gob} (LG : G.Lawful) {order : Nat → TermMap → TermMap}
  (ho : ∀ i m, (order i m).Perm m)

include L ho in
/-- Everything the proofs below need of a commit. -/
theorem writes_spec {docs : List Doc} {dw hw : List (List UInt8)} (hd : GoodDocs docs) (hf : FirstNonempty docs)
    (hw' : Writes ρ G order docs dw hw) :
    ∃ h, hw.flatten = G.encode h ∧ h.version = indexVersion ∧
      (dw.flatten.length < 2 ^ 32 → ∃ tables, buildTables h.terms (List.replicate h.indices none) = .ok tables ∧
        ∀ (j : Nat) (rest : List UInt8), IndexOk L ⟨⟨dw.flatten ++ rest, j⟩, tables⟩ (postings docs) (maxCard docs)) := by
  obtain ⟨ix, bytes, h, e1, e2, e3, e4⟩ := hw'
  obtain ⟨ix', f1, f2⟩ := addDocuments_spec docs WInv.nil (.inr hf)
  rw [e1] at f1
  simp only [Except.ok.injEq] at f1
  subst f1
  simp only [List.nil_append] at f2
  have hfun : ∀ c, postingsMul docs c = postings docs c := fun c => funext fun t => postingsMul_eq hd.terms c t
  obtain ⟨bytes', h', g1, g2, g3⟩ := commitData_spec L (f := postings docs) ho
    (fun c => by rw [← hfun c]; exact f2.maps c) (fun c t hne => plOk_of_good hd c t hne)
    (by rw [f2.len]; exact maxCard_lt (by omega) hd.card)
  rw [e2] at g1
  simp only [Except.ok.injEq, Prod.mk.injEq] at g1
  obtain ⟨rfl, rfl⟩ := g1
  refine ⟨h, e4, g2, ?_⟩
  rw [e3, ← f2.len]
  exact g3

include L ho in
/-- **C19** Adding the documents and committing never fails. -/
theorem C19_commit_succeeds (G : Gob) (docs : List Doc) (hd : GoodDocs docs) (hf : FirstNonempty docs) :
    ∃ dw hw, Writes ρ G order docs dw hw := by
  obtain ⟨ix, f1, f2⟩ := addDocuments_spec docs WInv.nil (.inr hf)
  simp only [List.nil_append] at f2
  have hfun : ∀ c, postingsMul docs c = postings docs c := fun c => funext fun t => postingsMul_eq hd.terms c t
  obtain ⟨bytes, h, g1, _⟩ := commitData_spec L (f := postings docs) ho
    (fun c => by rw [← hfun c]; exact f2.maps c) (fun c t hne => plOk_of_good hd c t hne)
    (by rw [f2.len]; exact maxCard_lt (by omega) hd.card)
  exact ⟨[bytes], [G.encode h], ix, bytes, h, f1, g1, by simp, by simp⟩

theorem readIndex_ok {G : Gob} (LG : G.Lawful) {cfg : WriterConfig} {opn : String → Except Err BytesInput} {h : Header}
    {rest docs : List UInt8} {tables : List (Option Table)}
    (h1 : opn cfg.header = .ok ⟨G.encode h ++ rest, 0⟩) (hv : h.version = indexVersion)
    (h2 : opn cfg.docs = .ok ⟨docs, 0⟩)
    (h3 : buildTables h.terms (List.replicate h.indices none) = .ok tables) :
    readIndex G cfg opn = .ok ⟨⟨docs, 0⟩, tables⟩ := by
  unfold readIndex
  simp only [h1, bind, Except.bind, LG.roundtrip, hv, ne_eq, not_true_eq_false, if_false, h2, h3, pure, Except.pure]

theorem openFS_some {fs : Files} {n : String} {b : List UInt8} (h : fs n = some b) (hb : b ≠ []) :
    openFS fs n = .ok ⟨b, 0⟩ := by
  unfold openFS; rw [h]
  cases b with
  | nil => exact absurd rfl hb
  | cons x xs => rfl

theorem encode_ne {G : Gob} (LG : G.Lawful) (h : Header) : G.encode h ≠ [] := by
  intro e
  have h1 := LG.roundtrip h []
  rw [e] at h1
  -- two different headers cannot both be encoded by nothing, and neither can one: take any other one
  obtain ⟨h', hne⟩ : ∃ h' : Header, h' ≠ h := by
    refine ⟨⟨h.version, h.indices + 1, h.terms⟩, fun e => ?_⟩
    have := congrArg Header.indices e
    simp at this
  have h2 := LG.roundtrip h' []
  have h3 := LG.roundtrip h (G.encode h' ++ [])
  rw [e, List.nil_append, h2] at h3
  simp only [Except.ok.injEq] at h3
  exact hne h3

include L LG ho in
/-- **C19** The index committed to a file system directory (whatever `fs` contained before) and opened again shows,
for every cardinality and term, exactly the ascending list of the ids of the documents with that number of terms
that contain the term; `Size()` is one more than the largest number of terms. -/
theorem C19_read_back_fs (cfg : WriterConfig) (hne : cfg.header ≠ cfg.docs) (fs : Files) (docs : List Doc)
    (dw hw : List (List UInt8)) (hd : GoodDocs docs) (hf : FirstNonempty docs)
    (hw' : Writes ρ G order docs dw hw) (h32 : dw.flatten.length < 2 ^ 32) (h0 : dw.flatten ≠ []) :
    ∃ oi, readIndex G cfg (openFS ((commitOpsFS cfg dw hw).foldl applyFS fs)) = .ok oi ∧
      Shows ρ oi (postings docs) ∧ oi.size = maxCard docs := by
  obtain ⟨h, e1, e2, e3⟩ := writes_spec L ho hd hf hw'
  obtain ⟨tables, e4, e5⟩ := e3 h32
  obtain ⟨f1, f2⟩ := commitFS_files hne fs dw hw
  refine ⟨⟨⟨dw.flatten, 0⟩, tables⟩, readIndex_ok LG (h := h) (rest := []) ?_ e2 (openFS_some f1 h0) e4, ?_, ?_⟩
  · rw [List.append_nil, ← e1]
    exact openFS_some f2 (by rw [e1]; exact encode_ne LG h)
  · exact Shows.of_ok (L := L) (n := maxCard docs) (by simpa using e5 0 [])
  · simpa using (e5 0 []).size

include L LG ho in
/-- **C19** the same for a new RAM directory (here also for an index without any posting list). -/
theorem C19_read_back_ram (cfg : WriterConfig) (hne : cfg.header ≠ cfg.docs) (docs : List Doc)
    (dw hw : List (List UInt8)) (hd : GoodDocs docs) (hf : FirstNonempty docs)
    (hw' : Writes ρ G order docs dw hw) (h32 : dw.flatten.length < 2 ^ 32) :
    ∃ oi, readIndex G cfg (openRAM ((commitOpsRAM cfg dw hw).foldl applyRAM fun _ => none)) = .ok oi ∧
      Shows ρ oi (postings docs) ∧ oi.size = maxCard docs := by
  obtain ⟨h, e1, e2, e3⟩ := writes_spec L ho hd hf hw'
  obtain ⟨tables, e4, e5⟩ := e3 h32
  obtain ⟨f1, f2⟩ := commitRAM_files hne (fun _ => none) dw hw
  refine ⟨⟨⟨dw.flatten, 0⟩, tables⟩, readIndex_ok LG (h := h) (rest := []) ?_ e2 ?_ e4, ?_, ?_⟩
  · unfold openRAM; rw [f2]; simp [e1]
  · unfold openRAM; rw [f1]; simp
  · exact Shows.of_ok (L := L) (n := maxCard docs) (by simpa using e5 0 [])
  · simpa using (e5 0 []).size

include L LG in
/-- **C20** Two commits of the same documents with different map iteration orders (and different splits into writes)
give indexes with the same tables present, the same terms, and posting lists that no history of calls distinguishes. -/
theorem C20_order_irrelevant (cfg : WriterConfig) (hne : cfg.header ≠ cfg.docs) (fs fs' : Files) (docs : List Doc)
    (order order' : Nat → TermMap → TermMap) (ho : ∀ i m, (order i m).Perm m) (ho' : ∀ i m, (order' i m).Perm m)
    (dw hw dw' hw' : List (List UInt8)) (hd : GoodDocs docs) (hf : FirstNonempty docs)
    (h1 : Writes ρ G order docs dw hw) (h1' : Writes ρ G order' docs dw' hw')
    (h32 : dw.flatten.length < 2 ^ 32) (h32' : dw'.flatten.length < 2 ^ 32)
    (h0 : dw.flatten ≠ []) (h0' : dw'.flatten ≠ []) :
    ∃ a b, readIndex G cfg (openFS ((commitOpsFS cfg dw hw).foldl applyFS fs)) = .ok a ∧
      readIndex G cfg (openFS ((commitOpsFS cfg dw' hw').foldl applyFS fs')) = .ok b ∧ a.size = b.size ∧
      (∀ c, a.table c = none ↔ b.table c = none) ∧
      ∀ c ta tb, a.table c = some ta → b.table c = some tb → ∀ t, ta.has t = tb.has t ∧
        ∀ ca, ta.get a.docs t = .ok (some ca) → ∃ cb, tb.get b.docs t = .ok (some cb) ∧
          ca.listSize = cb.listSize ∧
          ∀ stale stale', ∃ s s', openPList ρ stale ca = .ok s ∧ openPList ρ stale' cb = .ok s' ∧
            ∀ ops, ListIter.run s ops = ListIter.run s' ops := by
  obtain ⟨a, ra, sa, za⟩ := C19_read_back_fs L LG ho cfg hne fs docs dw hw hd hf h1 h32 h0
  obtain ⟨b, rb, sb, zb⟩ := C19_read_back_fs L LG ho' cfg hne fs' docs dw' hw' hd hf h1' h32' h0'
  refine ⟨a, b, ra, rb, by rw [za, zb], fun c => by rw [sa.absent, sb.absent], ?_⟩
  intro c ta tb hta htb t
  have hhas : ta.has t = tb.has t := by
    have h1 := sa.has c ta hta t
    have h2 := sb.has c tb htb t
    rw [Bool.eq_iff_iff, h1, h2]
  refine ⟨hhas, fun ca hca => ?_⟩
  by_cases hp : postings docs c t = []
  · rw [sa.missing c ta hta t hp] at hca; simp at hca
  · obtain ⟨ca', q1, q2, q3⟩ := sa.get c ta hta t hp
    rw [q1] at hca
    simp only [Except.ok.injEq, Option.some.injEq] at hca
    subst hca
    obtain ⟨cb, r1, r2, r3⟩ := sb.get c tb htb t hp
    refine ⟨cb, r1, by rw [q2, r2], fun stale stale' => ?_⟩
    obtain ⟨s, x1, x2⟩ := q3 stale
    obtain ⟨s', y1, y2⟩ := r3 stale'
    exact ⟨s, s', x1, y1, fun ops => by rw [x2, y2]⟩

include L LG ho in
/-- **C21** (partial) The process dies at any point of `Commit` (also in the middle of a write). If there was no
header before, or the new document list has at most 4096 bytes, then the index opened afterwards is either the old
one (files unchanged), or opening fails, or it has exactly the tables of the complete new index and every term
access fails or gives what the complete new index gives. Without the condition the claim is false:
`C21_stale_header_wrong`. -/
theorem C21_crash_partial (cfg : WriterConfig) (hne : cfg.header ≠ cfg.docs) (fs : Files) (docs : List Doc)
    (dw hw : List (List UInt8)) (hd : GoodDocs docs) (hf : FirstNonempty docs)
    (hw' : Writes ρ G order docs dw hw) (h32 : dw.flatten.length < 2 ^ 32)
    (hold : fs cfg.header = none ∨ dw.flatten.length ≤ 4096)
    (ops : List DirOp) (hc : Crash (commitOpsFS cfg dw hw) ops) :
    ops.foldl applyFS fs = fs ∨ (∃ e, readIndex G cfg (openFS (ops.foldl applyFS fs)) = .error e) ∨
    ∃ oi new, readIndex G cfg (openFS (ops.foldl applyFS fs)) = .ok oi ∧
      readIndex G cfg (openFS ((commitOpsFS cfg dw hw).foldl applyFS fs)) = .ok new ∧
      oi.size = new.size ∧ ∀ c, oi.table c = new.table c ∧ ∀ tab, oi.table c = some tab → ∀ t,
        (∃ e, tab.get oi.docs t = .error e) ∨ tab.get oi.docs t = tab.get new.docs t := by
  obtain ⟨h, e1, e2, e3⟩ := writes_spec L ho hd hf hw'
  obtain ⟨tables, e4, _⟩ := e3 h32
  rcases commit_crash hne fs dw hw hold hc with h1 | h1 | h1 | ⟨p, d, h1, h2, h3, h4⟩
  · exact .inl h1
  · refine .inr (.inl ?_)
    unfold readIndex
    cases hh : openFS (ops.foldl applyFS fs) cfg.header with
    | error e => exact ⟨e, rfl⟩
    | ok x =>
      simp only [bind, Except.bind]
      cases hg : G.decode x.buf with
      | error e => exact ⟨e, rfl⟩
      | ok y =>
        simp only
        split
        · exact ⟨_, rfl⟩
        · have : openFS (ops.foldl applyFS fs) cfg.docs = .error (.other "mmap: invalid argument") := by
            unfold openFS; rw [h1]
          rw [this]; exact ⟨_, rfl⟩
  · refine .inr (.inl ⟨.other "no such file", ?_⟩)
    unfold readIndex openFS
    rw [h1]; rfl
  · right
    by_cases hp0 : p = []
    · left
      refine ⟨.other "mmap: invalid argument", ?_⟩
      unfold readIndex openFS
      rw [h1, hp0]; rfl
    obtain ⟨q, hq⟩ := h3
    rw [e1] at hq
    by_cases hq0 : q = []
    · by_cases hd0 : d = []
      · left
        refine ⟨.other "mmap: invalid argument", ?_⟩
        rw [hd0] at h2
        unfold readIndex
        rw [openFS_some h1 hp0]
        rw [hq0, List.append_nil] at hq
        have : G.decode p = .ok h := by
          have := LG.roundtrip h []
          rwa [List.append_nil, ← hq] at this
        simp only [bind, Except.bind, this, e2, ne_eq, not_true_eq_false, if_false]
        have h3 : openFS (ops.foldl applyFS fs) cfg.docs = .error (.other "mmap: invalid argument") := by
          unfold openFS; rw [h2]
        rw [h3]
      · right
        rw [hq0, List.append_nil] at hq
        subst hq
        obtain ⟨f1, f2⟩ := commitFS_files hne fs dw hw
        have hdw : dw.flatten ≠ [] := by
          intro h0; rw [h0] at h4; exact hd0 (by simpa using h4)
        refine ⟨⟨⟨d, 0⟩, tables⟩, ⟨⟨dw.flatten, 0⟩, tables⟩,
          readIndex_ok LG (h := h) (rest := []) (by rw [List.append_nil]; exact openFS_some h1 hp0) e2
            (openFS_some h2 hd0) e4,
          readIndex_ok LG (h := h) (rest := []) (by rw [List.append_nil, ← e1]; exact openFS_some f2 (by rwa [e1])) e2
            (openFS_some f1 hdw) e4, rfl, fun c => ⟨rfl, fun tab htab t => ?_⟩⟩
        unfold Table.get
        cases tab t with
        | none => exact .inr rfl
        | some x =>
          simp only [bind, Except.bind]
          rcases slice_prefix h4 x.position x.size 0 0 with ⟨e, he⟩ | he
          · left; rw [he]; exact ⟨e, rfl⟩
          · right; rw [he]
    · left
      obtain ⟨e, he⟩ := LG.truncated h p q hq.symm hq0
      refine ⟨e, ?_⟩
      unfold readIndex
      rw [openFS_some h1 hp0]
      simp only [bind, Except.bind, he]

include L LG ho in
/-- **C22** On a file system the second commit replaces the first index: after committing `old` and then `new` the
reader sees `new`. (Instance of C19 with the files left by the first commit.) -/
theorem C22_fs_rebuild_replaces_partial (cfg : WriterConfig) (hne : cfg.header ≠ cfg.docs) (fs : Files)
    (odw ohw : List (List UInt8)) (docs : List Doc)
    (dw hw : List (List UInt8)) (hd : GoodDocs docs) (hf : FirstNonempty docs)
    (hw' : Writes ρ G order docs dw hw) (h32 : dw.flatten.length < 2 ^ 32) (h0 : dw.flatten ≠ []) :
    ∃ oi, readIndex G cfg (openFS ((commitOpsFS cfg odw ohw ++ commitOpsFS cfg dw hw).foldl applyFS fs)) = .ok oi ∧
      Shows ρ oi (postings docs) ∧ oi.size = maxCard docs := by
  rw [List.foldl_append]
  exact C19_read_back_fs L LG ho cfg hne _ docs dw hw hd hf hw' h32 h0

include L LG ho in
/-- **C22** is false for a RAM directory: after committing `old` and then anything else into the same RAM directory
the reader still sees exactly `old`. -/
theorem C22_ram_keeps_old (cfg : WriterConfig) (hne : cfg.header ≠ cfg.docs) (old : List Doc)
    (odw ohw : List (List UInt8)) (hd : GoodDocs old) (hf : FirstNonempty old)
    (hw' : Writes ρ G order old odw ohw) (h32 : odw.flatten.length < 2 ^ 32) (dw hw : List (List UInt8)) :
    ∃ oi, readIndex G cfg (openRAM ((commitOpsRAM cfg odw ohw ++ commitOpsRAM cfg dw hw).foldl applyRAM
        fun _ => none)) = .ok oi ∧ Shows ρ oi (postings old) ∧ oi.size = maxCard old := by
  obtain ⟨h, e1, e2, e3⟩ := writes_spec L ho hd hf hw'
  obtain ⟨tables, e4, e5⟩ := e3 h32
  obtain ⟨f1, f2⟩ := commitRAM_files hne (fun _ => none) odw ohw
  rw [List.foldl_append]
  obtain ⟨fs1, hfs1⟩ : ∃ x, (commitOpsRAM cfg odw ohw).foldl applyRAM (fun _ => none) = x := ⟨_, rfl⟩
  rw [hfs1] at f1 f2 ⊢
  obtain ⟨g1, g2⟩ := commitRAM_files hne fs1 dw hw
  rw [f1] at g1
  rw [f2] at g2
  simp only [Option.getD_none, List.nil_append, Option.getD_some] at g1 g2
  refine ⟨⟨⟨odw.flatten ++ dw.flatten, 0⟩, tables⟩, readIndex_ok LG (h := h) (rest := hw.flatten) ?_ e2 ?_ e4, ?_, ?_⟩
  · unfold openRAM; rw [g2, e1]
  · unfold openRAM; rw [g1]
  · exact Shows.of_ok (e5 0 dw.flatten)
  · exact (e5 0 dw.flatten).size

end

/-- **C56** Whatever the directory contains: if the header decodes to one with another version, opening fails. -/
theorem C56_version_refused (G : Gob) (cfg : WriterConfig) (opn : String → Except Err BytesInput) (hin : BytesInput)
    (h : Header) (h1 : opn cfg.header = .ok hin) (h2 : G.decode hin.buf = .ok h) (h3 : h.version ≠ "v5.1") :
    ∃ e, readIndex G cfg opn = .error e ∧ e.isPanic = false := by
  refine ⟨.other "index version mismatch", ?_, rfl⟩
  unfold readIndex
  simp only [h1, bind, Except.bind, h2]
  rw [if_pos (show h.version ≠ indexVersion from h3)]

/-- **C56** Conversely an index that opens has a header of the current version (and there is a document file). -/
theorem C56_opened_version (G : Gob) (cfg : WriterConfig) (opn : String → Except Err BytesInput) (oi : OpenIndex)
    (h : readIndex G cfg opn = .ok oi) : ∃ hin hd, opn cfg.header = .ok hin ∧ G.decode hin.buf = .ok hd ∧
      hd.version = "v5.1" ∧ opn cfg.docs = .ok oi.docs ∧ oi.size = hd.indices := by
  unfold readIndex at h
  cases h1 : opn cfg.header with
  | error e => simp [h1, bind, Except.bind] at h
  | ok hin =>
    simp only [h1, bind, Except.bind] at h
    cases h2 : G.decode hin.buf with
    | error e => simp [h2] at h
    | ok hd =>
      simp only [h2] at h
      by_cases h3 : hd.version = indexVersion
      · rw [if_neg (by simpa using h3)] at h
        cases h4 : opn cfg.docs with
        | error e => simp [h4] at h
        | ok d =>
          simp only [h4] at h
          cases h5 : buildTables hd.terms (List.replicate hd.indices none) with
          | error e => simp [h5] at h
          | ok ts =>
            simp only [h5, pure, Except.pure, Except.ok.injEq] at h
            subst h
            refine ⟨hin, hd, rfl, h2, h3, rfl, ?_⟩
            have : ∀ (ds : List TermDesc) (a b : List (Option Table)), buildTables ds a = .ok b → b.length = a.length := by
              intro ds
              induction ds with
              | nil => intro a b h; simp only [buildTables, Except.ok.injEq] at h; rw [h]
              | cons d ds ih =>
                intro a b h
                unfold buildTables at h
                split at h
                · simp at h
                · split at h
                  · simpa using ih _ _ h
                  · simpa using ih _ _ h
            simpa [OpenIndex.size] using this _ _ _ h5
      · rw [if_pos h3] at h; simp at h

/-- **C23** (partial) A history of `AddDocument` calls never fails if the first document has at least one term. -/
theorem C23_add_documents_partial (docs : List (Nat × List String)) (hf : ∀ d, docs.head? = some d → d.2 ≠ []) :
    ∃ ix, addDocuments docs [] = .ok ix := by
  obtain ⟨ix, h, _⟩ := addDocuments_spec (docs.map fun d => ⟨d.1, d.2⟩) WInv.nil (.inr (by
    intro d hd
    cases docs with
    | nil => simp at hd
    | cons x xs =>
      simp only [List.map_cons, List.head?_cons, Option.some.injEq] at hd
      subst hd
      exact hf x rfl))
  refine ⟨ix, ?_⟩
  rw [← h]
  simp [List.map_map, Function.comp_def]

/-- **C23** in full is false: the panic happens exactly when a document without terms comes first. -/
theorem C23_empty_first_panics (id : Nat) (rest : List (Nat × List String)) :
    addDocuments ((id, []) :: rest) [] = .error .panicMake := rfl

section
variable {ρ : Roaring} (L : ρ.Lawful) {G : Gob} (LG : G.Lawful) {order : Nat → TermMap → TermMap}
  (ho : ∀ i m, (order i m).Perm m)

/-- The three merge algorithms that the searcher may be configured with solve the T-occurrence problem. -/
theorem solves_mergers {σ κ : Type} [ListIter σ] (collect : κ → MergeCandidate → κ × CollectRes Err)
    {sort : List σ → List σ} (hs : ∀ r, (sort r).Perm r) :
    Solves collect (cpMerge collect sort) ∧ Solves collect (scanCount collect sort) ∧
      Solves collect (mergeSkip collect sort) :=
  ⟨fun rid ls T k hT h hne => C13_cpMerge collect sort hs rid ls T k hT h (fun _ => hne),
    fun rid ls T k _ h hne => C12_scanCount collect sort hs rid ls T k h (fun _ => hne),
    fun rid ls T k _ h hne => C14_mergeSkip collect sort hs rid ls T k h hne⟩

/-- Search on an index that shows the posting lists of the documents (helper for C24). -/
theorem search_indexOk {κ : Type} {collect : κ → MergeCandidate → κ × CollectRes Err}
    {merge : List (PList ρ) → Int → κ → κ × Option Err} (hsol : Solves collect merge)
    {docs : List Doc} (hd : GoodDocs docs) {oi : OpenIndex} {n : Nat} (hok : IndexOk L oi (postings docs) n) (c : Nat) :
    (oi.table c = none → ∀ d ∈ docs, d.terms.length = c → d.terms = []) ∧
      ∀ (tab : Table), oi.table c = some tab → ∀ (stale : Nat → SkipList) (q : List String), FewCommon docs q →
      ∀ (T : Nat), 1 ≤ T → ∀ k : κ, ∃ out : List (Nat × Nat),
        out.Pairwise (fun a b => a.1 < b.1) ∧
        (∀ id m, (id, m) ∈ out ↔ ∃ d ∈ docs, d.id = id ∧ d.terms.length = c ∧
          m = (q.filter (· ∈ d.terms)).length ∧ T ≤ m) ∧
        search ρ merge oi.docs stale tab q T k = feed collect k (packed out) := by
  have hmemp : ∀ id t, id ∈ postings docs c t ↔ ∃ d ∈ docs, d.id = id ∧ d.terms.length = c ∧ t ∈ d.terms := by
    intro id t
    unfold postings
    rw [List.mem_map]
    constructor
    · rintro ⟨d, hm, rfl⟩
      rw [List.mem_filter] at hm
      simp only [Bool.and_eq_true, decide_eq_true_eq] at hm
      exact ⟨d, hm.1, rfl, hm.2.1, hm.2.2⟩
    · rintro ⟨d, h1, rfl, h2, h3⟩
      exact ⟨d, List.mem_filter.2 ⟨h1, by simp [h2, h3]⟩, rfl⟩
  have hinj : ∀ d ∈ docs, ∀ d' ∈ docs, d.id = d'.id → d = d' := by
    intro d h1 d' h2 he
    by_contra hc
    obtain ⟨i, hi, rfl⟩ := List.getElem_of_mem h1
    obtain ⟨j, hj, rfl⟩ := List.getElem_of_mem h2
    rcases Nat.lt_trichotomy i j with hij | rfl | hij
    · have := List.pairwise_iff_getElem.1 hd.ids i j hi hj hij; omega
    · exact hc rfl
    · have := List.pairwise_iff_getElem.1 hd.ids j i hj hi hij; omega
  constructor
  · intro hnone d hdm hdc
    by_contra hcon
    obtain ⟨t, ht⟩ := List.exists_mem_of_ne_nil _ hcon
    have := (hok.absent c).1 hnone t
    have h2 := (hmemp d.id t).2 ⟨d, hdm, rfl, hdc, ht⟩
    rw [this] at h2
    simp at h2
  · intro tab htab stale q hq T hT k
    obtain ⟨out, o1, o2, o3⟩ := search_spec hsol hok
      (fun c t => by
        refine List.Pairwise.sublist (postings_sublist docs c t) ?_
        rw [List.pairwise_map]; exact hd.ids)
      (fun c t x hx => by
        obtain ⟨d, hdm, rfl⟩ := List.mem_map.1 ((postings_sublist docs c t).subset hx)
        exact hd.id32 d hdm) htab stale q (by have := hq.len; omega)
      (fun id => by
        by_cases hex : ∃ d ∈ docs, d.id = id ∧ d.terms.length = c
        · obtain ⟨d, hdm, hid, hdc⟩ := hex
          rw [show (q.filter fun t => decide (id ∈ postings docs c t)) = q.filter (· ∈ d.terms) from ?_]
          · exact hq.common d hdm
          · apply List.filter_congr
            intro t _
            rw [decide_eq_decide, hmemp]
            constructor
            · rintro ⟨d', h1, h2, _, h4⟩
              rwa [hinj d' h1 d hdm (h2.trans hid.symm)] at h4
            · exact fun h => ⟨d, hdm, hid, hdc, h⟩
        · rw [List.filter_eq_nil_iff.2]
          · simp
          · intro t _ ht
            rw [decide_eq_true_eq, hmemp] at ht
            obtain ⟨d, h1, h2, h3, _⟩ := ht
            exact hex ⟨d, h1, h2, h3⟩) T hT k
    refine ⟨out, o1, fun id m => ?_, o3⟩
    rw [o2]
    constructor
    · rintro ⟨rfl, hle⟩
      have hpos : 0 < (q.filter fun t => decide (id ∈ postings docs c t)).length := by omega
      obtain ⟨t, ht⟩ := List.exists_mem_of_length_pos hpos
      have ht' := (List.mem_filter.1 ht).2
      simp only [decide_eq_true_eq] at ht'
      obtain ⟨d, h1, h2, h3, _⟩ := (hmemp id t).1 ht'
      refine ⟨d, h1, h2, h3, ?_, hle⟩
      congr 1
      apply List.filter_congr
      intro t _
      rw [decide_eq_decide, hmemp]
      constructor
      · rintro ⟨d', g1, g2, g3, g4⟩
        rw [hinj d h1 d' g1 (by rw [h2, g2])]; exact g4
      · intro g; exact ⟨d, h1, h2, h3, g⟩
    · rintro ⟨d, h1, rfl, h3, rfl, hle⟩
      refine ⟨?_, hle⟩
      congr 1
      apply List.filter_congr
      intro t _
      rw [decide_eq_decide, hmemp]
      constructor
      · intro g; exact ⟨d, h1, rfl, h3, g⟩
      · rintro ⟨d', g1, g2, g3, g4⟩
        rw [hinj d h1 d' g1 g2.symm]; exact g4

/-- `oi` is an opened index of the documents `docs`: they were added to a new index writer and committed (with any
map iteration order and any split into writes) to a file system directory with any previous contents or to a new RAM
directory, and the index was opened. The document list fits in 4 GB. -/
def IndexOf (ρ : Roaring) (G : Gob) (docs : List Doc) (oi : OpenIndex) : Prop :=
  ∃ (cfg : WriterConfig) (order : Nat → TermMap → TermMap) (dw hw : List (List UInt8)),
    cfg.header ≠ cfg.docs ∧ (∀ i m, (order i m).Perm m) ∧ Writes ρ G order docs dw hw ∧ dw.flatten.length < 2 ^ 32 ∧
    ((∃ fs, readIndex G cfg (openFS ((commitOpsFS cfg dw hw).foldl applyFS fs)) = .ok oi) ∨
      readIndex G cfg (openRAM ((commitOpsRAM cfg dw hw).foldl applyRAM fun _ => none)) = .ok oi)

include L LG in
omit ho in
/-- An opened index shows the posting lists of its documents. -/
theorem IndexOf.ok {docs : List Doc} {oi : OpenIndex} (hd : GoodDocs docs) (hf : FirstNonempty docs)
    (h : IndexOf ρ G docs oi) : IndexOk L oi (postings docs) (maxCard docs) := by
  obtain ⟨cfg, order, dw, hw, hne, ho, hw', h32, h⟩ := h
  obtain ⟨h', e1, e2, e3⟩ := writes_spec L ho hd hf hw'
  obtain ⟨tables, e4, e5⟩ := e3 h32
  have hok := e5 0 []
  rw [List.append_nil] at hok
  rcases h with ⟨fs, h⟩ | h
  · obtain ⟨f1, f2⟩ := commitFS_files hne fs dw hw
    have hh : openFS ((commitOpsFS cfg dw hw).foldl applyFS fs) cfg.header = .ok ⟨G.encode h' ++ [], 0⟩ := by
      rw [List.append_nil, ← e1]
      exact openFS_some f2 (by rw [e1]; exact encode_ne LG h')
    by_cases h0 : dw.flatten = []
    · have : ∃ e, openFS ((commitOpsFS cfg dw hw).foldl applyFS fs) cfg.docs = .error e := by
        unfold openFS; rw [f1, h0]; exact ⟨_, rfl⟩
      obtain ⟨e, he⟩ := this
      unfold readIndex at h
      simp only [hh, bind, Except.bind, LG.roundtrip, e2, ne_eq, not_true_eq_false, if_false, he] at h
      cases h
    · rw [readIndex_ok LG hh e2 (openFS_some f1 h0) e4] at h
      cases h
      exact hok
  · obtain ⟨f1, f2⟩ := commitRAM_files hne (fun _ => none) dw hw
    rw [readIndex_ok LG (h := h') (rest := []) (by unfold openRAM; rw [f2]; simp [e1]) e2
      (by unfold openRAM; rw [f1]) e4] at h
    cases h
    exact hok

include L LG in
omit ho in
/-- **C24** Search on the opened index: for the documents with `c` terms, query `q` and threshold `T ≥ 1` the
collector gets, in ascending order of ids, exactly the documents that contain at least `T` of the query terms
(repeated query terms counted repeatedly), each with the exact number. For all mergers proved correct in C12–C14,
any sort, any pooled posting-list objects, any collector. If there is no table for `c`, no such document has a term. -/
theorem C24_search {κ : Type} (collect : κ → MergeCandidate → κ × CollectRes Err)
    (sort : List (PList ρ) → List (PList ρ)) (hs : ∀ r, (sort r).Perm r)
    (merge : List (PList ρ) → Int → κ → κ × Option Err)
    (hm : merge = cpMerge collect sort ∨ merge = scanCount collect sort ∨ merge = mergeSkip collect sort)
    {docs : List Doc} (hd : GoodDocs docs) (hf : FirstNonempty docs) {oi : OpenIndex} (hoi : IndexOf ρ G docs oi)
    (c : Nat) :
    (oi.table c = none → ∀ d ∈ docs, d.terms.length = c → d.terms = []) ∧
      ∀ (tab : Table), oi.table c = some tab → ∀ (stale : Nat → SkipList) (q : List String), FewCommon docs q →
      ∀ (T : Nat), 1 ≤ T → ∀ k : κ, ∃ out : List (Nat × Nat),
        out.Pairwise (fun a b => a.1 < b.1) ∧
        (∀ id m, (id, m) ∈ out ↔ ∃ d ∈ docs, d.id = id ∧ d.terms.length = c ∧
          m = (q.filter (· ∈ d.terms)).length ∧ T ≤ m) ∧
        search ρ merge oi.docs stale tab q T k = feed collect k (packed out) := by
  have hsol : Solves collect merge := by
    obtain ⟨h1, h2, h3⟩ := solves_mergers (σ := PList ρ) collect hs
    rcases hm with rfl | rfl | rfl
    · exact h1
    · exact h2
    · exact h3
  exact search_indexOk L hsol hd (hoi.ok L LG hd hf) c

include L LG ho in
/-- Every such list of documents has an opened index (in a RAM directory), if its posting lists fit in 4 GB. -/
theorem indexOf_exists (docs : List Doc) (dw hw : List (List UInt8)) (hd : GoodDocs docs) (hf : FirstNonempty docs)
    (hw' : Writes ρ G order docs dw hw) (h32 : dw.flatten.length < 2 ^ 32) : ∃ oi, IndexOf ρ G docs oi := by
  obtain ⟨oi, h, _⟩ := C19_read_back_ram L LG ho ⟨"a", "b"⟩ (by decide) docs dw hw hd hf hw' h32
  exact ⟨oi, _, order, dw, hw, by decide, ho, hw', h32, .inr h⟩

end

/-! ### The contract of encoding/gob is satisfiable -/

/-- Numbers of a string. -/
def strNats (s : String) : List Nat := s.toList.map Char.toNat

theorem strNats_inj {a b : String} (h : strNats a = strNats b) : a = b := by
  have h1 := List.map_injective_iff.2 (fun (x y : Char) (e : x.toNat = y.toNat) => Char.toNat_inj.1 e) h
  exact String.toList_inj.1 h1

/-- There is a lawful `Gob`: number the headers and write the number in unary. -/
theorem gob_contract_satisfiable : ∃ G : Gob, G.Lawful := by
  obtain ⟨f, hf⟩ : ∃ f : Header → Nat, Function.Injective f := by
    obtain ⟨g, hg⟩ := exists_injective_nat (List Nat × Nat × List (List Nat × Nat × Nat × Nat × Nat))
    refine ⟨fun h => g (strNats h.version, h.indices, h.terms.map fun d =>
      (strNats d.term, d.indice, d.bytesSize, d.position, d.listLen)), fun a b hab => ?_⟩
    have h1 := hg hab
    simp only [Prod.mk.injEq] at h1
    obtain ⟨h1, h2, h3⟩ := h1
    obtain ⟨av, ai, at'⟩ := a
    obtain ⟨bv, bi, bt⟩ := b
    have hinj : Function.Injective fun d : TermDesc => (strNats d.term, d.indice, d.bytesSize, d.position, d.listLen) := by
      rintro ⟨a1, a2, a3, a4, a5⟩ ⟨b1, b2, b3, b4, b5⟩ h
      simp only [Prod.mk.injEq] at h
      obtain ⟨h1, rfl, rfl, rfl, rfl⟩ := h
      rw [strNats_inj h1]
    simp only at h1 h2 h3
    rw [strNats_inj h1, h2, List.map_injective_iff.2 hinj h3]
  classical
  have hrep : ∀ n rest, (List.replicate n (1 : UInt8) ++ 0 :: rest).takeWhile (· = 1) = List.replicate n 1 := by
    intro n rest
    induction n with
    | zero => simp
    | succ n ih => simp [List.replicate_succ, ih]
  refine ⟨⟨fun h => List.replicate (f h) 1 ++ [0], fun b =>
    if ∃ h, List.replicate (f h) (1 : UInt8) ++ [0] <+: b then
      if hh : ∃ h, f h = (b.takeWhile (· = 1)).length then .ok hh.choose else .error (.other "gob")
    else .error (.other "EOF")⟩, ?_, ?_⟩
  · intro h rest
    have hp : ∃ h', List.replicate (f h') (1 : UInt8) ++ [0] <+: (List.replicate (f h) 1 ++ [0]) ++ rest :=
      ⟨h, List.prefix_append _ _⟩
    have hl : (((List.replicate (f h) (1 : UInt8) ++ [0]) ++ rest).takeWhile (· = 1)).length = f h := by
      rw [List.append_assoc]; simp only [List.cons_append, List.nil_append]; rw [hrep]; simp
    have hex : ∃ h', f h' = (((List.replicate (f h) (1 : UInt8) ++ [0]) ++ rest).takeWhile (· = 1)).length :=
      ⟨h, hl.symm⟩
    simp only [hp, if_true, hex, dif_pos]
    exact congrArg Except.ok (hf (hex.choose_spec.trans hl))
  · intro h p q hpq hq
    refine ⟨.other "EOF", ?_⟩
    have hno : ¬ ∃ h', List.replicate (f h') (1 : UInt8) ++ [0] <+: p := by
      rintro ⟨h', hp⟩
      obtain ⟨r, rfl⟩ := hp
      have h0 : (0 : UInt8) ∉ List.replicate (f h) (1 : UInt8) := by
        intro hm; have := List.eq_of_mem_replicate hm; simp at this
      obtain ⟨x, y, hxy⟩ : ∃ x y, (r ++ q) = x ++ [y] := by
        rcases List.eq_nil_or_concat (r ++ q) with e | ⟨x, y, e⟩
        · simp at e; exact absurd e.2 hq
        · exact ⟨x, y, by simpa using e⟩
      simp only at hpq
      rw [List.append_assoc, hxy, ← List.append_assoc] at hpq
      have := (List.append_inj' hpq rfl).1
      apply h0
      rw [this]; simp
    simp only [hno, if_false]

/-! ### Concrete cases -/

/-- Encoding of a one-element posting list. -/
theorem codecEncode_one (ρ : Roaring) (v : Nat) (h : v ≤ 0x7F) : codecEncode ρ [v] = .ok ([UInt8.ofNat v], 1) := by
  have hv : encVUInt32 (u32sub v 0) = [UInt8.ofNat v] := by
    have : u32sub v 0 = v := by unfold u32sub; omega
    rw [this, encVUInt32]; simp [h]
  unfold codecEncode
  rw [if_pos (by simp [skippingGapSize])]
  simp [vbEncode, varIntEncode, varIntEncodeTotal, hv]

theorem commitEntries_const (ρ : Roaring) (v : Nat) (h : v ≤ 0x7F) : ∀ (es : List (Nat × String × List Nat)) (off : Nat),
    (∀ e ∈ es, e.2.2 = [v]) → ∃ ds, commitEntries ρ es off = .ok (List.replicate es.length (UInt8.ofNat v), ds)
  | [], _, _ => ⟨[], rfl⟩
  | (i, t, pl) :: es, off, he => by
    have : pl = [v] := he (i, t, pl) (by simp)
    subst this
    obtain ⟨ds, hds⟩ := commitEntries_const ρ v h es (off + 1) fun e h => he e (by simp [h])
    refine ⟨⟨t, u32 i, u32 1, u32 off, u32 [v].length⟩ :: ds, ?_⟩
    simp only [commitEntries, codecEncode_one ρ v h, bind, Except.bind, hds, pure, Except.pure, List.length_cons,
      List.replicate_succ]
    rfl

/-- `n` different terms. -/
theorem exists_terms (n : Nat) : ∃ T : List String, T.Nodup ∧ T.length = n := by
  refine ⟨(List.range n).map fun i => String.ofList (List.replicate i 'a'),
    List.Nodup.map (fun a b h => ?_) List.nodup_range, by simp⟩
  have := String.ofList_injective h
  simpa using congrArg List.length this

/-- **C21** in full is false: an index with one document (id 5, term "z") is overwritten by an index whose document
list exceeds the 4096 byte buffer. If the process dies before the new header is created, the index opened
afterwards (old header, new document list) answers that "z" occurs in document 7, which is true neither of the old
nor of the new index. -/
theorem C21_stale_header_wrong {ρ : Roaring} (L : ρ.Lawful) {G : Gob} (LG : G.Lawful) (cfg : WriterConfig)
    (hne : cfg.header ≠ cfg.docs) :
    ∃ (old new : List Doc) (odw ohw dw hw : List (List UInt8)) (ops : List DirOp),
      (GoodDocs old ∧ FirstNonempty old) ∧ (GoodDocs new ∧ FirstNonempty new) ∧
      Writes ρ G (fun _ m => m) old odw ohw ∧ Writes ρ G (fun _ m => m) new dw hw ∧
      Crash (commitOpsFS cfg dw hw) ops ∧
      ∃ oi tab ctx, readIndex G cfg (openFS (ops.foldl applyFS
          ((commitOpsFS cfg odw ohw).foldl applyFS fun _ => none))) = .ok oi ∧
        oi.table 1 = some tab ∧ tab.get oi.docs "z" = .ok (some ctx) ∧
        (∀ stale, ∃ s, openPList ρ stale ctx = .ok s ∧ Opened s [7]) ∧
        postings old 1 "z" = [5] ∧ postings new 1 "z" = [] := by
  obtain ⟨T, hTn, hTlen⟩ := exists_terms 5000
  obtain ⟨new, hnew⟩ : ∃ new : List Doc, new = [⟨7, T⟩] := ⟨_, rfl⟩
  have hTne : T ≠ [] := fun h => by rw [h] at hTlen; simp at hTlen
  have gnew : GoodDocs new := by
    subst hnew
    exact ⟨by simp, by simp, by simpa using hTn, by simp [hTlen], by simp⟩
  have fnew : FirstNonempty new := by
    subst hnew
    intro d hd
    simp only [List.head?_cons, Option.some.injEq] at hd
    subst hd; exact hTne
  -- the old index
  have hold : commitData ρ (fun _ m => m) [none, some [("z", [5])]]
      = .ok ([5], ⟨indexVersion, 2, [⟨"z", 1, 1, 0, 1⟩]⟩) := by
    simp only [commitData, commitOrder, List.zipIdx_cons, List.zipIdx_nil, List.flatMap_cons, List.flatMap_nil,
      Option.getD_some, Option.getD_none, List.map_nil, List.nil_append, List.map_cons, List.append_nil,
      commitEntries, codecEncode_one ρ 5 (by decide), bind, Except.bind, pure, Except.pure]
    rfl
  -- the new index
  obtain ⟨ix, f1, f2⟩ := addDocuments_spec new WInv.nil (.inr fnew)
  simp only [List.nil_append] at f2
  have hpost : ∀ c t, postings new c t = if T.length = c ∧ t ∈ T then [7] else [] := by
    intro c t
    subst hnew
    unfold postings
    by_cases h : T.length = c ∧ t ∈ T
    · rw [if_pos h, List.filter_cons_of_pos (by simp [h])]; rfl
    · rw [if_neg h, List.filter_cons_of_neg (by simpa using h)]; rfl
  have hmem : ∀ i t pl, (i, t, pl) ∈ commitOrder (fun _ m => m) ix ↔
      i < ix.length ∧ pl = postings new i t ∧ pl ≠ [] := by
    intro i t pl
    rw [mem_commitOrder, (f2.maps i).mem, postingsMul_eq gnew.terms]
  obtain ⟨ds, hds⟩ := commitEntries_const ρ 7 (by decide) (commitOrder (fun _ m => m) ix) 0 (by
    rintro ⟨i, t, pl⟩ he
    obtain ⟨_, h2, h3⟩ := (hmem i t pl).1 he
    rw [hpost] at h2
    split at h2
    · exact h2
    · exact absurd h2 h3)
  have hlen : 5000 ≤ (commitOrder (fun _ m => m) ix).length := by
    have hsub : (T.map fun t => (5000, t, [7])) ⊆ commitOrder (fun _ m => m) ix := by
      intro e he
      obtain ⟨t, ht, rfl⟩ := List.mem_map.1 he
      refine (hmem _ _ _).2 ⟨?_, ?_, by simp⟩
      · rw [f2.len, hnew]; simp [maxCard, hTlen]
      · rw [hpost, if_pos ⟨hTlen, ht⟩]
    have hnd : (T.map fun t => ((5000 : Nat), t, [7])).Nodup :=
      hTn.map fun a b h => (Prod.mk.inj (Prod.mk.inj h).2).1
    have := (hnd.subperm hsub).length_le
    simpa [hTlen] using this
  obtain ⟨m, hm⟩ : ∃ m, (commitOrder (fun _ m => m) ix).length = m := ⟨_, rfl⟩
  rw [hm] at hlen hds
  have hnewd : commitData ρ (fun _ m => m) ix = .ok (List.replicate m 7, ⟨indexVersion, u32 ix.length, ds⟩) := by
    simp only [commitData, hds, bind, Except.bind, pure, Except.pure]; rfl
  obtain ⟨nh, hnh⟩ : ∃ nh : Header, nh = ⟨indexVersion, u32 ix.length, ds⟩ := ⟨_, rfl⟩
  rw [← hnh] at hnewd
  obtain ⟨dw, hdw⟩ : ∃ dw : List (List UInt8), dw = List.replicate m [7] := ⟨_, rfl⟩
  have hdwf : dw.flatten = List.replicate m 7 := by
    rw [hdw]; clear hdw hnewd hds hm hlen
    induction m with
    | zero => rfl
    | succ m ih => rw [List.replicate_succ, List.flatten_cons, ih, List.replicate_succ]; rfl
  -- what has reached the file before the header is created
  obtain ⟨bw, hbw⟩ : ∃ bw, bufWrites 4096 dw [] = bw := ⟨_, rfl⟩
  have hb1 := bufWrites_flatten 4096 dw []
  have hb2 := bufWrites_le 4096 dw [] (by simp)
  rw [hbw] at hb1 hb2
  rw [hdwf, List.nil_append] at hb1
  obtain ⟨n, hn⟩ : ∃ n, bw.1.flatten = List.replicate (n + 1) 7 := by
    have h1 := congrArg List.length hb1
    rw [List.length_append, List.length_replicate] at h1
    have h2 : ∀ x ∈ bw.1.flatten, x = 7 := fun x hx =>
      List.eq_of_mem_replicate (by rw [← hb1]; exact List.mem_append_left _ hx)
    refine ⟨bw.1.flatten.length - 1, ?_⟩
    rw [List.eq_replicate_iff]
    exact ⟨by omega, h2⟩
  obtain ⟨fs0, hfs0⟩ : ∃ x, (commitOpsFS cfg [[5]] [G.encode ⟨indexVersion, 2, [⟨"z", 1, 1, 0, 1⟩]⟩]).foldl applyFS
      (fun _ => none) = x := ⟨_, rfl⟩
  obtain ⟨_, g2⟩ := commitFS_files hne (fun _ => none) [[5]] [G.encode ⟨indexVersion, 2, [⟨"z", 1, 1, 0, 1⟩]⟩]
  rw [hfs0] at g2
  obtain ⟨a1, a2⟩ := applyFS_writes cfg.docs bw.1 (applyFS fs0 (.create cfg.docs)) (b := [])
    (by simp [applyFS, Files.update])
  have a2 := a2 cfg.header hne
  rw [show applyFS fs0 (.create cfg.docs) cfg.header = fs0 cfg.header from by simp [applyFS, Files.update, hne],
    g2] at a2
  rw [hn] at a1
  simp only [List.nil_append, List.flatten_cons, List.flatten_nil, List.append_nil] at a1 a2
  refine ⟨[⟨5, ["z"]⟩], new, [[5]], [G.encode ⟨indexVersion, 2, [⟨"z", 1, 1, 0, 1⟩]⟩], dw, [G.encode nh],
    .create cfg.docs :: bw.1.map (.write cfg.docs), ⟨⟨by simp, by simp, by simp, by simp, by simp⟩, ?_⟩, ⟨gnew, fnew⟩,
    ⟨_, _, _, rfl, hold, rfl, by simp⟩, ⟨ix, _, nh, f1, hnewd, hdwf, by simp⟩, ?_, ?_⟩
  · intro d hd
    simp only [List.head?_cons, Option.some.injEq] at hd
    subst hd; simp
  · apply Crash.of_prefix
    unfold commitOpsFS
    rw [hbw]
    simp only [List.cons_append, List.append_assoc]
    exact List.prefix_cons_inj _ |>.2 (List.prefix_append _ _)
  · rw [hfs0, List.foldl_cons]
    refine ⟨⟨⟨List.replicate (n + 1) 7, 0⟩, [none, some fun x => if x = "z" then some ⟨1, 0, 1⟩ else none]⟩,
      fun x => if x = "z" then some ⟨1, 0, 1⟩ else none, ⟨1, ⟨[7], 0⟩⟩,
      readIndex_ok LG (h := ⟨indexVersion, 2, [⟨"z", 1, 1, 0, 1⟩]⟩) (rest := []) ?_ rfl
        (openFS_some a1 (by simp)) rfl, rfl, ?_, ?_, by decide, ?_⟩
    · rw [List.append_nil]; exact openFS_some a2 (encode_ne LG _)
    · unfold Table.get BytesInput.slice
      simp only [if_true]
      rw [if_neg (by simp [List.length_replicate])]
      simp [List.replicate_succ, bind, Except.bind, pure, Except.pure]
    · intro stale
      obtain ⟨b, s, q1, q2, q3⟩ := C11_codec ρ L [7] stale (by simp) (by simp) (by simp)
      rw [codecEncode_one ρ 7 (by decide)] at q1
      simp only [Except.ok.injEq, Prod.mk.injEq] at q1
      obtain ⟨rfl, _⟩ := q1
      exact ⟨s, q2, q3⟩
    · rw [hpost, if_neg (by omega)]

/-- Documents of a small index. -/
def exampleDocs : List Doc := [⟨0, ["ab", "bc"]⟩, ⟨1, ["bc", "cd"]⟩, ⟨7, ["ab", "bc", "cd"]⟩, ⟨9, []⟩]

theorem exampleDocs_good : GoodDocs exampleDocs ∧ FirstNonempty exampleDocs :=
  ⟨⟨by decide, by decide, by decide, by decide, by decide⟩, by
    intro d hd
    simp only [exampleDocs, List.head?_cons, Option.some.injEq] at hd
    subst hd
    simp⟩

example : postings exampleDocs 2 "bc" = [0, 1] ∧ postings exampleDocs 3 "bc" = [7] ∧ postings exampleDocs 2 "x" = [] := by
  decide

/-- All hypotheses of C19–C22, C24 are met together by concrete documents, libraries and writes. -/
theorem example_writes : ∃ (ρ : Roaring) (_ : ρ.Lawful) (G : Gob) (_ : G.Lawful) (dw hw : List (List UInt8)),
    Writes ρ G (fun _ m => m) exampleDocs dw hw ∧ dw.flatten.length < 2 ^ 32 ∧ dw.flatten ≠ [] := by
  obtain ⟨G, LG⟩ := gob_contract_satisfiable
  obtain ⟨ix, hix0⟩ : ∃ ix : Indices, ix = [some [], none, some [("ab", [0]), ("bc", [0, 1]), ("cd", [1])],
      some [("ab", [7]), ("bc", [7]), ("cd", [7])]] := ⟨_, rfl⟩
  have hix : addDocuments (exampleDocs.map fun d => (d.id, d.terms)) [] = .ok ix := by rw [hix0]; decide
  obtain ⟨h, hh⟩ : ∃ h, commitData toyRoaring (fun _ m => m) ix = .ok ([0, 0, 1, 1, 7, 7, 7], h) := by
    have hv : ∀ v, v ≤ 0x7F → encVUInt32 v = [UInt8.ofNat v] := fun v hv => by
      rw [encVUInt32]; simp [hv]
    have h1 := codecEncode_one toyRoaring
    have h2 : codecEncode toyRoaring [0, 1] = .ok ([0, 1], 2) := by
      simp [codecEncode, vbEncode, varIntEncode, varIntEncodeTotal, u32sub, hv 0, hv 1, skippingGapSize]
    rw [hix0]
    simp only [commitData, commitOrder, List.zipIdx_cons, List.zipIdx_nil, List.flatMap_cons, List.flatMap_nil,
      Option.getD_some, Option.getD_none, List.map_nil, List.nil_append, List.map_cons, List.cons_append,
      commitEntries, h1 0 (by decide), h1 1 (by decide), h1 7 (by decide), h2, bind,
      Except.bind, pure, Except.pure]
    exact ⟨_, rfl⟩
  exact ⟨toyRoaring, toyLawful, G, LG, [[0, 0, 1], [1, 7], [], [7, 7]], [G.encode h],
    ⟨ix, _, h, hix, hh, rfl, by simp⟩, by decide, by decide⟩

/-- … and there is an opened index of these documents. -/
theorem example_indexOf : ∃ (ρ : Roaring) (_ : ρ.Lawful) (G : Gob) (_ : G.Lawful) (oi : OpenIndex),
    IndexOf ρ G exampleDocs oi := by
  obtain ⟨ρ, L, G, LG, dw, hw, h1, h2, h3⟩ := example_writes
  obtain ⟨oi, h⟩ := indexOf_exists L LG (order := fun _ m => m) (fun _ _ => .refl _) exampleDocs dw hw exampleDocs_good.1 exampleDocs_good.2 h1 h2
  exact ⟨ρ, L, G, LG, oi, h⟩

end Verif.Props
