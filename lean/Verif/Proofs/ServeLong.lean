import Verif.Proofs.Serve
import Verif.Proofs.Builder
import Mathlib.Data.List.TakeWhile
/- Queries with very many n-grams that become one n-gram when the characters outside the alphabet are replaced. -/
namespace Verif.Serve
open Verif Spec Verif.WordSearch

theorem windows_infix {α : Type} {n : Nat} {x t : List α} (h : x <:+: t) (hn : x.length = n) : x ∈ windows n t := by
  obtain ⟨a, b, rfl⟩ := h
  unfold windows
  refine List.mem_map.2 ⟨a.length, List.mem_range.2 (by simp; omega), ?_⟩
  rw [List.append_assoc, List.drop_left, List.take_left' hn]

theorem dropWhile_keeps {α : Type} {p : α → Bool} (a : List α) {m : List α} (b : List α) (hne : m ≠ []) (hm : ∀ x ∈ m, p x = false) :
    ∃ a', (a ++ m ++ b).dropWhile p = a' ++ m ++ b := by
  induction a with
  | nil =>
    cases m with
    | nil => exact absurd rfl hne
    | cons y m => exact ⟨[], by simp [List.dropWhile_cons, hm y List.mem_cons_self]⟩
  | cons y a ih =>
    obtain ⟨a', ha⟩ := ih
    by_cases hy : p y = true
    · exact ⟨a', by rw [List.cons_append, List.cons_append, List.dropWhile_cons_of_pos hy]; exact ha⟩
    · exact ⟨y :: a, by rw [List.cons_append, List.cons_append, List.dropWhile_cons_of_neg hy]⟩

/-- Trimming does not touch what has no spaces. -/
theorem infix_trim {a m b : List Char} (hm : ∀ x ∈ m, x ≠ ' ') : m <:+: Spec.trim ' ' (a ++ m ++ b) := by
  by_cases hne : m = []
  · subst hne; exact List.nil_infix
  have hm' : ∀ x ∈ m, (x == ' ') = false := fun x hx => by simpa using hm x hx
  obtain ⟨a', ha⟩ := dropWhile_keeps (p := (· == ' ')) a b hne hm'
  unfold Spec.trim
  rw [ha, List.reverse_append, List.reverse_append, ← List.append_assoc]
  obtain ⟨b', hb⟩ := dropWhile_keeps (p := (· == ' ')) b.reverse a'.reverse (m := m.reverse) (by simpa using hne)
    (fun x hx => hm' x (List.mem_reverse.1 hx))
  rw [hb]
  exact ⟨a', b'.reverse, by simp⟩

section
variable {lower : Nat → Nat} {sort : List Alphabet → List Alphabet} {d : TokenConf} {c : WordConf}

/-- The terms of any query: the replacement is not followed by another removal of repetitions. -/
theorem suggestTokens_any (h : Describes lower sort d c) {w : List Char} (hlen : c.n ≤ (c.wordText w).length) :
    suggestTokenizer lower sort d (utf8 w) = .ok ((windows c.n (c.wordText w)).eraseDups.map fun x => utf8 (c.normal x)) := by
  unfold suggestTokenizer wrapTokenize filterTokenize
  rw [h.start, h.fin, ← utf8_append, ← utf8_append, toLowerText_utf8 c.lower lower h.lower, trimSpaces_utf8]
  show Except.map _ (nGramTokenize d.nGramSize (utf8 (c.wordText w))) = _
  rw [h.size, nGramTokenize_utf8 h.pos h.le]
  have hge := utf8_length_ge (c.wordText w)
  rw [if_neg (by omega), if_neg (by omega), map_eraseDups utf8 _ _ (Nat.le_refl _) (fun x _ y _ e => utf8_injective e)]
  show Except.ok _ = _
  congr 1
  unfold normalizeFilter
  rw [List.map_map]
  apply List.map_congr_left
  intro x _
  exact normalizeToken_utf8 h x

/-- Different n-grams of the query that become an n-gram of the word are counted each. -/
theorem many_shared {q ms : List (List Char)} {g : List Char} {x : Doc} (hnd : ms.Nodup)
    (hms : ∀ m ∈ ms, m ∈ q ∧ c.normal m = g) (hg : term g ∈ x.terms) :
    ms.length ≤ shared ((q.eraseDups.map fun y => utf8 (c.normal y)).map goString) x := by
  unfold shared
  rw [List.map_map, List.filter_map, List.length_map]
  refine (hnd.subperm fun m hm => ?_).length_le
  obtain ⟨h1, h2⟩ := hms m hm
  rw [List.mem_filter]
  refine ⟨List.mem_eraseDups.2 h1, ?_⟩
  simp only [Function.comp_apply, h2, decide_eq_true_eq]
  exact hg

end

end Verif.Serve
