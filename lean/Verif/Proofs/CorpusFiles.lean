import Verif.Proofs.NGramFiles
import Mathlib.Data.List.Nodup
/- The count files of a corpus. -/
namespace Verif.CFiles
open Verif Verif.Spec Verif.NFiles Verif.Props

variable {α : Type} [DecidableEq α]

theorem occ_mem {p : List α} : ∀ {s : List α}, gramOccurrences p s ≠ 0 → ∀ w ∈ p, w ∈ s
  | [], h, w, hw => by
    simp only [gramOccurrences] at h
    split at h
    · rename_i e; subst e; simp at hw
    · exact absurd rfl h
  | x :: s, h, w, hw => by
    simp only [gramOccurrences] at h
    split at h
    · rename_i e; exact e.subset hw
    · rw [Nat.zero_add] at h
      exact List.mem_cons_of_mem _ (occ_mem h w hw)

theorem occ_dropLast (p : List α) : ∀ s : List α, gramOccurrences p s ≤ gramOccurrences p.dropLast s
  | [] => by
    simp only [gramOccurrences]
    split
    · rename_i e; subst e; simp
    · omega
  | x :: s => by
    have ih := occ_dropLast p s
    simp only [gramOccurrences]
    split
    · rename_i e
      rw [if_pos ((List.dropLast_prefix p).trans e)]
      omega
    · omega

theorem sum_prefix_le (n : Nat) (s : List α) : ∀ {L : List (List α)}, L.Nodup → (∀ p ∈ L, p.length = n) →
    (L.map fun p => if p <+: s then 1 else 0).sum ≤ 1
  | [], _, _ => by simp
  | p :: L, hn, hl => by
    rw [List.nodup_cons] at hn
    rw [List.map_cons, List.sum_cons]
    by_cases hp : p <+: s
    · have : (L.map fun p => if p <+: s then 1 else 0).sum = 0 := by
        apply List.sum_eq_zero
        intro x hx
        obtain ⟨q, hq, rfl⟩ := List.mem_map.1 hx
        rw [if_neg]
        intro hqs
        have := List.prefix_of_prefix_length_le hqs hp (by rw [hl q (by simp [hq]), hl p (by simp)])
        have he := this.eq_of_length (by rw [hl q (by simp [hq]), hl p (by simp)])
        exact hn.1 (he ▸ hq)
      rw [if_pos hp, this]
    · have := sum_prefix_le n s hn.2 (fun q hq => hl q (by simp [hq]))
      rw [if_neg hp]
      omega

theorem sum_map_add (f g : List α → Nat) (L : List (List α)) :
    (L.map fun p => f p + g p).sum = (L.map f).sum + (L.map g).sum := by
  induction L with
  | nil => rfl
  | cons a L ih => simp only [List.map_cons, List.sum_cons, ih]; omega

/-- Different n-grams of one order: together they occur at most once per position. -/
theorem sum_occ_le {n : Nat} (hn : 1 ≤ n) {L : List (List α)} (hd : L.Nodup) (hl : ∀ p ∈ L, p.length = n) :
    ∀ s : List α, (L.map fun p => gramOccurrences p s).sum ≤ s.length
  | [] => by
    have : (L.map fun p => gramOccurrences p ([] : List α)).sum = 0 := by
      apply List.sum_eq_zero
      intro x hx
      obtain ⟨q, hq, rfl⟩ := List.mem_map.1 hx
      have := hl q hq
      simp only [gramOccurrences]
      rw [if_neg]
      rintro rfl
      simp only [List.length_nil] at this
      omega
    omega
  | x :: s => by
    have h1 := sum_occ_le hn hd hl s
    have h2 := sum_prefix_le n (x :: s) hd hl
    simp only [gramOccurrences]
    rw [sum_map_add, List.length_cons]
    omega

theorem sum_single {L : List (List α)} (hd : L.Nodup) (hl : ∀ p ∈ L, p.length = 1) (x : α) (s : List α) (hx : [x] ∈ L) :
    (L.map fun p => if p <+: x :: s then 1 else 0).sum = 1 := by
  have h2 := sum_prefix_le 1 (x :: s) hd hl
  have h1 : 1 ≤ (L.map fun p => if p <+: x :: s then 1 else 0).sum := by
    apply le_sum_of_mem
    exact List.mem_map.2 ⟨[x], hx, by simp⟩
  omega

/-- If every word of the sentence is listed, the unigram counts sum up to its length. -/
theorem sum_occ_one {L : List (List α)} (hd : L.Nodup) (hl : ∀ p ∈ L, p.length = 1) :
    ∀ s : List α, (∀ w ∈ s, [w] ∈ L) → (L.map fun p => gramOccurrences p s).sum = s.length
  | [], _ => by
    have := sum_occ_le (Nat.le_refl 1) hd hl ([] : List α)
    simpa using this
  | x :: s, h => by
    have h1 := sum_occ_one hd hl s fun w hw => h w (by simp [hw])
    have h2 := sum_single hd hl x s (h x (by simp))
    simp only [gramOccurrences]
    rw [sum_map_add, List.length_cons]
    omega

theorem sum_comm (f : List α → List α → Nat) (L S : List (List α)) :
    (L.map fun p => (S.map fun s => f p s).sum).sum = (S.map fun s => (L.map fun p => f p s).sum).sum := by
  induction S with
  | nil => simp
  | cons a S ih =>
    simp only [List.map_cons, List.sum_cons]
    rw [sum_map_add, ih]

theorem sum_le_sum (f g : List α → Nat) (S : List (List α)) (h : ∀ s ∈ S, f s ≤ g s) : (S.map f).sum ≤ (S.map g).sum := by
  induction S with
  | nil => simp
  | cons a S ih =>
    simp only [List.map_cons, List.sum_cons]
    have := h a (by simp)
    have := ih fun s hs => h s (by simp [hs])
    omega

theorem corpusCount_le {start fin : Bytes} (corpus : List (List Bytes)) {n : Nat} (hn : 1 ≤ n) {L : List (List Bytes)}
    (hd : L.Nodup) (hl : ∀ p ∈ L, p.length = n) :
    (L.map (corpusCount start fin corpus)).sum ≤ corpusTokens corpus := by
  unfold corpusCount corpusTokens
  rw [sum_comm (fun p s => gramOccurrences p (start :: s ++ [fin]))]
  apply sum_le_sum
  intro s _
  have := sum_occ_le hn hd hl (start :: s ++ [fin])
  simpa using this

theorem corpusCount_dropLast (start fin : Bytes) (corpus : List (List Bytes)) (p : List Bytes) :
    corpusCount start fin corpus p ≤ corpusCount start fin corpus p.dropLast :=
  sum_le_sum _ _ _ fun _ _ => occ_dropLast _ _

theorem corpusCount_le_one (start fin : Bytes) (corpus : List (List Bytes)) {p : List Bytes} (hp : p ≠ []) :
    corpusCount start fin corpus p ≤ corpusTokens corpus := by
  have := corpusCount_le (start := start) (fin := fin) corpus (n := p.length) (L := [p])
    (List.length_pos_of_ne_nil hp) (by simp) (by simp)
  simpa using this

theorem sum_ne_zero {l : List Nat} (h : l.sum ≠ 0) : ∃ x ∈ l, x ≠ 0 := by
  by_contra hc
  push Not at hc
  exact h (List.sum_eq_zero hc)

theorem corpusCount_mem {start fin : Bytes} {corpus : List (List Bytes)} {p : List Bytes}
    (h : corpusCount start fin corpus p ≠ 0) :
    ∃ s ∈ corpus, s ≠ [] ∧ gramOccurrences p (start :: s ++ [fin]) ≠ 0 ∧ ∀ w ∈ p, w = start ∨ w ∈ s ∨ w = fin := by
  obtain ⟨x, hx, h0⟩ := sum_ne_zero h
  obtain ⟨s, hs, rfl⟩ := List.mem_map.1 hx
  obtain ⟨hs, hne⟩ := List.mem_filter.1 hs
  refine ⟨s, hs, by simpa using hne, h0, fun w hw => ?_⟩
  have := occ_mem h0 w hw
  simpa using this

theorem corpusCount_word {start fin : Bytes} {corpus : List (List Bytes)} {s : List Bytes} (hs : s ∈ corpus) (hne : s ≠ [])
    {w : Bytes} (hw : w ∈ start :: s ++ [fin]) : corpusCount start fin corpus [w] ≠ 0 := by
  have h1 : gramOccurrences [w] (start :: s ++ [fin]) ≠ 0 := by
    have : ∀ l : List Bytes, w ∈ l → gramOccurrences [w] l ≠ 0 := by
      intro l
      induction l with
      | nil => simp
      | cons a l ih =>
        intro hm
        simp only [gramOccurrences]
        rcases List.mem_cons.1 hm with rfl | hm
        · simp
        · have := ih hm; omega
    exact this _ hw
  have h2 : gramOccurrences [w] (start :: s ++ [fin]) ≤
      ((corpus.filter (· ≠ [])).map fun s => gramOccurrences [w] (start :: s ++ [fin])).sum :=
    le_sum_of_mem (List.mem_map.2 ⟨s, List.mem_filter.2 ⟨hs, by simpa using hne⟩, rfl⟩)
  unfold corpusCount
  omega

theorem sum_eq_tokens {start fin : Bytes} {corpus : List (List Bytes)} {L : List (List Bytes)}
    (hd : L.Nodup) (hl : ∀ p ∈ L, p.length = 1) (hL : ∀ w, corpusCount start fin corpus [w] ≠ 0 → [w] ∈ L) :
    (L.map (corpusCount start fin corpus)).sum = corpusTokens corpus := by
  unfold corpusTokens
  have h0 : (L.map (corpusCount start fin corpus)).sum =
      ((corpus.filter (· ≠ [])).map fun s => (L.map fun p => gramOccurrences p (start :: s ++ [fin])).sum).sum := by
    rw [← sum_comm (fun p s => gramOccurrences p (start :: s ++ [fin]))]
    rfl
  rw [h0]
  congr 1
  apply List.map_congr_left
  intro s hs
  rw [sum_occ_one hd hl]
  · simp
  · intro w hw
    apply hL
    exact corpusCount_word (List.mem_filter.1 hs).1 (by simpa using (List.mem_filter.1 hs).2) hw

/-! ### the files -/

theorem totalCount_mem {F : List (List α × Nat)} : (F.map Prod.fst).Nodup → ∀ {g : List α} {c : Nat}, (g, c) ∈ F →
    totalCount F g = c := by
  induction F with
  | nil => intro _ g c h; simp at h
  | cons e F ih =>
    intro hn g c h
    rw [List.map_cons, List.nodup_cons] at hn
    rcases List.mem_cons.1 h with h | h
    · subst h
      have : F.filter (fun pc => decide (pc.1 = g)) = [] := by
        rw [List.filter_eq_nil_iff]
        intro x hx hxg
        exact hn.1 (List.mem_map.2 ⟨x, hx, by simpa using hxg⟩)
      simp [totalCount, this]
    · have hne : e.1 ≠ g := fun he => hn.1 (List.mem_map.2 ⟨(g, c), h, he.symm⟩)
      have := ih hn.2 h
      simpa [totalCount, hne] using this

theorem totalCount_not_mem {F : List (List α × Nat)} {g : List α} (h : ∀ e ∈ F, e.1 ≠ g) : totalCount F g = 0 := by
  unfold totalCount
  rw [List.filter_eq_nil_iff.2]
  · rfl
  · intro e he hg
    exact h e he (by simpa using hg)

theorem totalCount_le (F : List (List α × Nat)) (g : List α) : totalCount F g ≤ (F.map Prod.snd).sum := by
  unfold totalCount
  induction F with
  | nil => simp
  | cons e F ih =>
    rw [List.filter_cons]
    split
    · simp only [List.map_cons, List.sum_cons]; omega
    · simp only [List.map_cons, List.sum_cons]; omega

/-- The files with these counts: the k-th has a line for each n-gram of order k+1 with a nonzero count. -/
structure IsFiles (cnt : List Bytes → Nat) (order : Nat) (files : List (List (List Bytes × Nat))) : Prop where
  len : files.length = order
  nodup : ∀ (k : Nat) F, files[k]? = some F → (F.map Prod.fst).Nodup
  mem : ∀ (k : Nat) F, files[k]? = some F → ∀ p c, (p, c) ∈ F ↔ p.length = k + 1 ∧ c = cnt p ∧ c ≠ 0

/-- The words of a file replaced by their ids. -/
def idFile (id : Bytes → Nat) (F : List (List Bytes × Nat)) : List (List Nat × Nat) := F.map fun e => (e.1.map id, e.2)

theorem idFile_snd (id : Bytes → Nat) (F : List (List Bytes × Nat)) : (idFile id F).map Prod.snd = F.map Prod.snd := by
  simp [idFile, Function.comp_def]

theorem isFiles_sum {cnt : List Bytes → Nat} {order : Nat} {files : List (List (List Bytes × Nat))}
    (h : IsFiles cnt order files) {k : Nat} {F} (hF : files[k]? = some F) :
    F.map Prod.snd = (F.map Prod.fst).map cnt := by
  rw [List.map_map]
  apply List.map_congr_left
  intro e he
  exact ((h.mem k F hF e.1 e.2).1 he).2.1

theorem map_inj {id : Bytes → Nat} {voc : List Bytes} (hinj : ∀ v ∈ voc, ∀ w ∈ voc, id v = id w → v = w) :
    ∀ {g g' : List Bytes}, (∀ w ∈ g, w ∈ voc) → (∀ w ∈ g', w ∈ voc) → g.map id = g'.map id → g = g'
  | [], [], _, _, _ => rfl
  | [], _ :: _, _, _, h => by simp at h
  | _ :: _, [], _, _, h => by simp at h
  | a :: g, b :: g', h1, h2, h => by
    simp only [List.map_cons, List.cons.injEq] at h
    rw [hinj a (h1 a (by simp)) b (h2 b (by simp)) h.1,
      map_inj hinj (fun w hw => h1 w (by simp [hw])) (fun w hw => h2 w (by simp [hw])) h.2]

theorem gramCount_ids {cnt : List Bytes → Nat} {order : Nat} {files : List (List (List Bytes × Nat))}
    (h : IsFiles cnt order files) {id : Bytes → Nat} {voc : List Bytes}
    (hinj : ∀ v ∈ voc, ∀ w ∈ voc, id v = id w → v = w) (hv : ∀ p, cnt p ≠ 0 → ∀ w ∈ p, w ∈ voc) {g : List Bytes}
    (hg : ∀ w ∈ g, w ∈ voc) (h1 : 1 ≤ g.length) (h2 : g.length ≤ order) :
    gramCount (files.map (idFile id)) (g.map id) = cnt g := by
  unfold gramCount
  have hk : g.length - 1 < files.length := by rw [h.len]; omega
  have hF : files[g.length - 1]? = some files[g.length - 1] := List.getElem?_eq_getElem hk
  rw [List.getD_eq_getElem?_getD, List.getElem?_map, List.length_map, hF, Option.map_some, Option.getD_some]
  generalize files[g.length - 1] = F at hF
  have hmem := h.mem _ F hF
  have hfil : totalCount (idFile id F) (g.map id) = totalCount F g := by
    unfold totalCount idFile
    rw [List.filter_map, List.map_map]
    congr 1
    have : F.filter ((fun pc => decide (pc.1 = g.map id)) ∘ fun e => (e.1.map id, e.2)) =
        F.filter fun pc => decide (pc.1 = g) := by
      apply List.filter_congr
      intro e he
      obtain ⟨a, b, c⟩ := (hmem e.1 e.2).1 he
      by_cases hc : e.1 = g
      · simp [hc]
      · have : e.1.map id ≠ g.map id := fun hh => hc (map_inj hinj (hv e.1 (by rw [← b]; exact c)) hg hh)
        simp [hc, this]
    rw [this]
    rfl
  rw [hfil]
  by_cases h0 : cnt g = 0
  · rw [h0]
    apply totalCount_not_mem
    intro e he hg'
    obtain ⟨a, b, c⟩ := (hmem e.1 e.2).1 he
    rw [hg'] at b
    exact c (b.trans h0)
  · exact totalCount_mem (h.nodup _ F hF) ((hmem _ _).2 ⟨by omega, rfl, h0⟩)

theorem files_of_ids {files : List (List (List Bytes × Nat))} {id : Bytes → Nat} {F' : List (List Nat × Nat)}
    (hF' : F' ∈ files.map (idFile id)) : ∃ (k : Nat) (F : List (List Bytes × Nat)), files[k]? = some F ∧ F' = idFile id F := by
  obtain ⟨F, hF, rfl⟩ := List.mem_map.1 hF'
  obtain ⟨k, hk⟩ := List.getElem?_of_mem hF
  exact ⟨k, F, hk, rfl⟩

theorem file_of_ids {files : List (List (List Bytes × Nat))} {id : Bytes → Nat} {F' : List (List Nat × Nat)} {k : Nat}
    (hF' : (files.map (idFile id))[k]? = some F') : ∃ F, files[k]? = some F ∧ F' = idFile id F := by
  rw [List.getElem?_map] at hF'
  cases hf : files[k]? with
  | none => rw [hf] at hF'; simp at hF'
  | some F => rw [hf] at hF'; simp at hF'; exact ⟨F, rfl, hF'.symm⟩

theorem goodFiles_ids {cnt : List Bytes → Nat} {order : Nat} {files : List (List (List Bytes × Nat))}
    (h : IsFiles cnt order files) {id : Bytes → Nat} (hid : ∀ p, cnt p ≠ 0 → ∀ w ∈ p, id w < 2 ^ 32)
    (hclosed : ∀ p, 2 ≤ p.length → cnt p ≠ 0 → cnt p.dropLast ≠ 0) (hcnt : ∀ p, p ≠ [] → cnt p < 2 ^ 32)
    (hlines : ∀ F ∈ files, F.length ≤ 2 ^ 32 - 3) : GoodFiles (files.map (idFile id)) := by
  refine { order := ?_, words := ?_, counts := ?_, closed := ?_, lines := ?_ }
  · intro k F' hF' e he
    obtain ⟨F, hF, rfl⟩ := file_of_ids hF'
    obtain ⟨e, he', rfl⟩ := List.mem_map.1 he
    simpa using ((h.mem k F hF e.1 e.2).1 he').1
  · intro F' hF' e he w hw
    obtain ⟨k, F, hF, rfl⟩ := files_of_ids hF'
    obtain ⟨e, he', rfl⟩ := List.mem_map.1 he
    obtain ⟨v, hv, rfl⟩ := List.mem_map.1 hw
    obtain ⟨a, b, c⟩ := (h.mem k F hF e.1 e.2).1 he'
    exact hid e.1 (by rw [← b]; exact c) v hv
  · intro F' hF' e he
    obtain ⟨k, F, hF, rfl⟩ := files_of_ids hF'
    obtain ⟨e, he', rfl⟩ := List.mem_map.1 he
    obtain ⟨a, b, c⟩ := (h.mem k F hF e.1 e.2).1 he'
    simp only [b]
    exact hcnt _ (by intro h0; rw [h0] at a; simp at a)
  · intro k F' hF' e he
    obtain ⟨F, hF, rfl⟩ := file_of_ids hF'
    obtain ⟨e, he', rfl⟩ := List.mem_map.1 he
    obtain ⟨a, b, c⟩ := (h.mem _ F hF e.1 e.2).1 he'
    have hkl : k + 1 < files.length := (List.getElem?_eq_some_iff.1 hF).1
    have hG : files[k]? = some files[k] := List.getElem?_eq_getElem (by omega)
    have hd := hclosed e.1 (by omega) (by rw [← b]; exact c)
    refine ⟨(e.1.dropLast.map id, cnt e.1.dropLast), ?_, ?_⟩
    · simp only [List.length_dropLast, List.length_map, a]
      rw [show k + 1 + 1 - 1 - 1 = k by omega, List.getD_eq_getElem?_getD, List.getElem?_map, hG, Option.map_some,
        Option.getD_some]
      apply List.mem_map.2
      refine ⟨(e.1.dropLast, cnt e.1.dropLast), (h.mem k _ hG _ _).2 ⟨?_, rfl, ?_⟩, rfl⟩
      · simp [a]
      · omega
    · simp only [List.map_dropLast]
  · intro F' hF'
    obtain ⟨k, F, hF, rfl⟩ := files_of_ids hF'
    simp only [idFile, List.length_map]
    exact hlines F (List.mem_of_getElem? hF)

theorem length_le_sum : ∀ l : List Nat, (∀ x ∈ l, x ≠ 0) → l.length ≤ l.sum := by
  intro l
  induction l with
  | nil => simp
  | cons a l ih =>
    intro hx
    have := hx a (by simp)
    have := ih fun x h => hx x (by simp [h])
    simp only [List.length_cons, List.sum_cons]
    omega

theorem corpusFiles_ids {cnt : List Bytes → Nat} {order : Nat} {files : List (List (List Bytes × Nat))}
    (h : IsFiles cnt order files) {id : Bytes → Nat} (hid : ∀ p, cnt p ≠ 0 → ∀ w ∈ p, id w < 2 ^ 32)
    (hclosed : ∀ p, 2 ≤ p.length → cnt p ≠ 0 → cnt p.dropLast ≠ 0)
    (hsum : ∀ (n : Nat) (L : List (List Bytes)), 1 ≤ n → L.Nodup → (∀ p ∈ L, p.length = n) →
      (L.map cnt).sum ≤ 2 ^ 32 - 3) : CorpusFiles (files.map (idFile id)) := by
  have hfs : ∀ (k : Nat) F, files[k]? = some F → (F.map Prod.snd).sum ≤ 2 ^ 32 - 3 := by
    intro k F hF
    rw [isFiles_sum h hF]
    apply hsum (k + 1) _ (by omega) (h.nodup k F hF)
    intro p hp
    obtain ⟨e, he, rfl⟩ := List.mem_map.1 hp
    exact ((h.mem k F hF e.1 e.2).1 he).1
  have hgd : ∀ k : Nat, (((files.map (idFile id)).getD k []).map Prod.snd).sum < 2 ^ 32 := by
    intro k
    rw [List.getD_eq_getElem?_getD]
    cases hf : (files.map (idFile id))[k]? with
    | none => simp
    | some F' =>
      obtain ⟨F, hF, rfl⟩ := file_of_ids hf
      rw [Option.getD_some, idFile_snd]
      have := hfs k F hF
      omega
  refine { toGoodFiles := goodFiles_ids h hid hclosed ?_ ?_, positive := ?_, fits := ?_, sizeFits := ?_ }
  · intro p hp
    have := hsum p.length [p] (List.length_pos_of_ne_nil hp) (by simp) (by simp)
    simp at this
    omega
  · intro F hF
    obtain ⟨k, hk⟩ := List.getElem?_of_mem hF
    have h1 := hfs k F hk
    have h3 := length_le_sum (F.map Prod.snd) (by
      intro x hx
      obtain ⟨e, he, rfl⟩ := List.mem_map.1 hx
      exact ((h.mem k F hk e.1 e.2).1 he).2.2)
    simp only [List.length_map] at h3
    omega
  · intro F' hF' e he
    obtain ⟨k, F, hF, rfl⟩ := files_of_ids hF'
    obtain ⟨e, he', rfl⟩ := List.mem_map.1 he
    have := ((h.mem k F hF e.1 e.2).1 he').2.2
    simp only
    omega
  · intro g
    unfold gramCount
    have h1 := hgd (g.length - 1)
    have h2 := totalCount_le ((files.map (idFile id)).getD (g.length - 1) []) g
    omega
  · exact hgd 0

end Verif.CFiles
