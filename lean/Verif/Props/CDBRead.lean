import Verif.Proofs.CDBRead
import Verif.Props.Indexer
/- C92: reading a mapped file and walking through the dictionary on disc. -/
namespace Verif.Props
open Verif Spec Verif.WordSearch Verif.Scan Verif.CDBRead

/-- C92 (ReadAt): on an open file, ReadAt returns the bytes from the offset on, as many as fit into the buffer and are there; io.EOF exactly if
there are fewer than asked for; an offset outside the file is refused. -/
theorem C92_read_at (d : List UInt8) (n : Nat) (off : Int) :
    (off < 0 ∨ (d.length : Int) < off → (MMap.readAt ⟨some d⟩ n off) = ([], some errOffset)) ∧
    ∀ k : Nat, off = k → k ≤ d.length →
      (∀ i, i < n → k + i < d.length → (MMap.readAt ⟨some d⟩ n off).1[i]? = d[k + i]?) ∧
      (MMap.readAt ⟨some d⟩ n off).1.length = min n (d.length - k) ∧
      ((MMap.readAt ⟨some d⟩ n off).2 = if d.length < k + n then some .eof else none) := by
  constructor
  · intro h
    unfold MMap.readAt
    simp only
    rw [if_pos h]
  · rintro k rfl hk
    have e : MMap.readAt ⟨some d⟩ n (k : Int) = if ((d.drop k).take n).length < n then ((d.drop k).take n, some .eof) else ((d.drop k).take n, none) := by
      unfold MMap.readAt
      simp only
      rw [if_neg (by omega)]
      rfl
    have e1 : (MMap.readAt ⟨some d⟩ n (k : Int)).1 = (d.drop k).take n := by rw [e]; split <;> rfl
    rw [e1]
    refine ⟨fun i hi hd => ?_, by simp, ?_⟩
    · rw [List.getElem?_take, if_pos hi, List.getElem?_drop]
    · rw [e]
      simp only [List.length_take, List.length_drop]
      by_cases h : d.length < k + n
      · rw [if_pos h, if_pos (by omega)]
      · rw [if_neg h, if_neg (by omega)]

/-- C92 (Close): afterwards every use is refused with an error, also a second Close. -/
theorem C92_closed (r : MMap) : ∀ n off, (r.close.1.readAt n off) = ([], some errClosed) ∧ r.close.1.bytes = .error errClosed ∧
    r.close.1.close = (r.close.1, some errClosed) := by
  intro n off
  obtain ⟨d⟩ := r
  cases d <;> exact ⟨rfl, rfl, rfl⟩

/-- C92 (Iterate): if the records `c` are in the file and no value is empty, the callback gets every pair of key and value, in order, until it
reports an error. Missing for the full property: empty values (`C92_empty_value_stops`). -/
theorem C92_iterate_partial {σ : Type} {d : List UInt8} {f : σ → Nat → List UInt8 → σ × Option Err} {ps : List RecPos} {c : CDB}
    (hst : Stored d ps c) (hk : ∀ e ∈ c, e.1.length = 4) (hv : ∀ e ∈ c, e.2 ≠ []) (s : σ) :
    iterate ⟨some d⟩ f ps s = visit f c.pairs s := by
  have := iterate_append (f := f) hst hk hv [] s
  rw [List.append_nil] at this
  rw [this]
  generalize visit f c.pairs s = q
  obtain ⟨s', o⟩ := q
  cases o <;> rfl

/-- C92 (the lines of a file): walking through the dictionary the indexer wrote for a source gives the lines with their numbers. -/
theorem C92_lines_partial {σ : Type} {d : List UInt8} {f : σ → Nat → List UInt8 → σ × Option Err} {ps : List RecPos} {lines : List (List UInt8)}
    (hst : Stored d ps (cdbRecords lines)) (hlen : lines.length ≤ 2 ^ 32) (hv : [] ∉ lines) (s : σ) :
    iterate ⟨some d⟩ f ps s = visit f (ramDict lines) s := by
  rw [← C75_dictionary hlen]
  refine C92_iterate_partial hst ?_ ?_ s
  · intro e he
    obtain ⟨x, _, rfl⟩ := List.mem_map.1 he
    rfl
  · intro e he h
    obtain ⟨⟨l, i⟩, hx, rfl⟩ := List.mem_map.1 he
    have hl : l ∈ lines := (List.mem_zipIdx_iff_getElem?.1 hx) |> List.mem_of_getElem?
    exact hv (h ▸ hl)

/-- C92 (negation): at the first empty value Iterate stops with io.EOF; the records behind it are never seen. -/
theorem C92_empty_value_stops {σ : Type} {d : List UInt8} {f : σ → Nat → List UInt8 → σ × Option Err} {ps rest : List RecPos} {p : RecPos}
    {c : CDB} {key : List UInt8} (hst : Stored d ps c) (hk : ∀ e ∈ c, e.1.length = 4) (hv : ∀ e ∈ c, e.2 ≠ [])
    (hkey : At d p.keyAt key) (hks : p.keySize = key.length) (hkey4 : key.length = 4) (hempty : p.valueSize = 0) (s s' : σ)
    (hf : visit f c.pairs s = (s', none)) : iterate ⟨some d⟩ f (ps ++ p :: rest) s = (s', some .eof) := by
  rw [iterate_append (f := f) hst hk hv, hf]
  simp only
  rw [iterate, hks, readBuf_some hkey (by intro h; rw [h] at hkey4; cases hkey4), hempty, readBuf_empty]

/-- C92 (negation): so the dictionary of a source with a blank line cannot be walked through: after the lines before it there is an error. -/
theorem C92_blank_line_stops {σ : Type} {d : List UInt8} {f : σ → Nat → List UInt8 → σ × Option Err} {ps : List RecPos}
    {before after : List (List UInt8)} (hst : Stored d ps (cdbRecords (before ++ [] :: after))) (hlen : before.length < 2 ^ 32)
    (hv : [] ∉ before) (s s' : σ) (hf : visit f (ramDict before) s = (s', none)) : iterate ⟨some d⟩ f ps s = (s', some .eof) := by
  have e : cdbRecords (before ++ [] :: after) = cdbRecords before ++ (leKey (before.length % 2 ^ 32), []) ::
      (after.zipIdx (before.length + 1)).map fun li => (leKey (li.2 % 2 ^ 32), li.1) := by
    unfold cdbRecords
    rw [List.zipIdx_append, List.map_append, List.zipIdx_cons, List.map_cons]
    simp
  unfold Stored at hst
  rw [e] at hst
  obtain ⟨ps1, ps2, h1, h2, rfl⟩ : ∃ ps1 ps2, List.Forall₂ _ ps1 (cdbRecords before) ∧ List.Forall₂ _ ps2 _ ∧ ps = ps1 ++ ps2 := by
    refine ⟨ps.take (cdbRecords before).length, ps.drop (cdbRecords before).length, List.forall₂_take_append _ _ _ hst,
      List.forall₂_drop_append _ _ _ hst, (List.take_append_drop _ _).symm⟩
  cases h2 with
  | @cons p _ rest _ hp _ =>
    obtain ⟨k1, k2, k3, k4⟩ := hp
    refine C92_empty_value_stops (c := cdbRecords before) h1 ?_ ?_ k3 k1 rfl k2 s s' ?_
    · intro e he
      obtain ⟨x, _, rfl⟩ := List.mem_map.1 he
      rfl
    · intro e he h
      obtain ⟨⟨l, i⟩, hx, rfl⟩ := List.mem_map.1 he
      have hl : l ∈ before := (List.mem_zipIdx_iff_getElem?.1 hx) |> List.mem_of_getElem?
      exact hv (h ▸ hl)
    · rw [C75_dictionary (by omega)]; exact hf

/-- A source with a blank line: "zebra", "", "apple". -/
def blankLine : Reader := ⟨[[122, 101, 98, 114, 97, 10, 10], [97, 112, 112, 108, 101, 10]], .eof, false⟩

theorem blankLine_lines : Spec.lines blankLine.chunks.flatten = [utf8 "zebra".toList, [], utf8 "apple".toList] := by decide +kernel

/-- C92 (negation): a DISC source with a blank line. The indexer (with a cdb library whose readers are section readers) fails after the
dictionary has been replaced: the new dictionary is served with the old index, and the query "apple" is answered with "zebra", with the score
of "apple". -/
theorem C92_empty_line_fails {G : Gob} (LG : G.Lawful) {flag : String} (d : IndexDesc) (hd : d.disc = true) (hs : d.source = some blankLine)
    (hc : Wanted flag d) {order : Nat → TermMap → TermMap} {splitDocs splitHeader : List UInt8 → List (List UInt8)} :
    ∃ (ρ : Roaring) (_ : ρ.Lawful) (w : String → DiscState) (oi : OpenIndex) (ops : List (String × JobOp)),
      openDisc G d.name (w d.place) = .ok (oi, ramDict [utf8 "apple".toList]) ∧
      IndexerRun ρ G order splitDocs splitHeader (fun _ => suggestTokenizer asciiLower id tinyConf) flag [d] ops (some .eof) ∧
      openDisc G d.name (ops.foldl applyAt w d.place) = .ok (oi, ramDict [utf8 "zebra".toList, [], utf8 "apple".toList]) ∧
      (∃ r, ServiceSuggest (f64Ops 0) (jaccardMetric (f64Ops 0)) ρ id (suggestTokenizer asciiLower id tinyConf) oi
        (ramDict [utf8 "zebra".toList, [], utf8 "apple".toList]) (utf8 "apple".toList) (1 / 2) 5 r) ∧
      ∀ r, ServiceSuggest (f64Ops 0) (jaccardMetric (f64Ops 0)) ρ id (suggestTokenizer asciiLower id tinyConf) oi
          (ramDict [utf8 "zebra".toList, [], utf8 "apple".toList]) (utf8 "apple".toList) (1 / 2) 5 r →
        ∃ score : ℚ, |(score : ℝ) - 1| ≤ 1 / 2 ^ 50 ∧ r = .ok [(score, utf8 "zebra".toList)] := by
  obtain ⟨s, oi, hopen, hw⟩ := old_index LG d.name
  have hy : (newScanner blankLine).Yields scanLines [utf8 "zebra".toList, [], utf8 "apple".toList] none := by
    have := Scan.yields_new Scan.scanLines_ok Scan.scanLines_fits (r := blankLine) (by decide)
      (by show ∀ l ∈ blankLine.chunks.flatten.splitOn 10, l.length < 65536; decide +kernel)
    rw [blankLine_lines] at this
    exact this
  have hdict : (cdbRecords [utf8 "zebra".toList, [], utf8 "apple".toList]).pairs = ramDict [utf8 "zebra".toList, [], utf8 "apple".toList] :=
    C75_dictionary (by simp)
  refine ⟨toyRoaring, toyLawful, fun _ => s, oi, _, hopen, .fail (chosen_iff.2 hc) (.emptyLine hd hs hy (by simp)), ?_,
    mixture_answers LG hw _, ?_⟩
  · rw [applyAt_same, hdict]
    obtain ⟨dc, files⟩ := s
    cases dc with
    | none => simp [openDisc, addOutcome] at hopen
    | some d0 =>
      simp only [List.foldl_cons, List.foldl_nil, applyJob, openDisc, addOutcome] at hopen ⊢
      cases hb : buildFS G d.name files with
      | error e => rw [hb] at hopen; cases hopen
      | ok i => rw [hb] at hopen; cases hopen; rfl
  · intro r hr
    obtain ⟨score, h1, h2⟩ := mixture_word LG hw _ hr
    exact ⟨score, h1, h2⟩

/-! ### example -/

/-- A file with the records of "a", "", "bc", and the positions of the first, the second and the third. -/
def recordBytes : List UInt8 := [0, 0, 0, 0, 97, 1, 0, 0, 0, 2, 0, 0, 0, 98, 99]
def recordA : RecPos := ⟨0, 4, 4, 1⟩
def recordEmpty : RecPos := ⟨5, 4, 9, 0⟩
def recordBC : RecPos := ⟨9, 4, 13, 2⟩

/-- Non-vacuity: the records are stored; without the empty one all are seen, with it the walk ends there. -/
example : Stored recordBytes [recordA, recordBC] [(leKey 0, [97]), (leKey 2, [98, 99])] ∧
    iterate ⟨some recordBytes⟩ (fun (l : Dict) k v => (l ++ [(k, v)], none)) [recordA, recordBC] [] = ([(0, [97]), (2, [98, 99])], none) ∧
    iterate ⟨some recordBytes⟩ (fun (l : Dict) k v => (l ++ [(k, v)], none)) [recordA, recordEmpty, recordBC] [] = ([(0, [97])], some .eof) := by
  refine ⟨?_, by decide +kernel, by decide +kernel⟩
  refine .cons ⟨rfl, rfl, ⟨by decide, by decide⟩, ⟨by decide, by decide⟩⟩ (.cons ⟨rfl, rfl, ⟨by decide, by decide⟩, ⟨by decide, by decide⟩⟩ .nil)

end Verif.Props
