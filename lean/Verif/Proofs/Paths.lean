import Verif.Model.Paths
import Verif.Spec.Paths
import Mathlib.Data.List.TakeWhile
/-! Where the paths of a configuration lead. -/
namespace Verif.Paths
open Verif.Spec (pathStep locate FileName FilePath)

theorem comp_no_slash (p : List Char) : ∀ c ∈ p.splitOn '/', '/' ∉ c := by
  induction p with
  | nil => intro c hc; rw [List.splitOn_nil, List.mem_singleton] at hc; subst hc; simp
  | cons x p ih =>
    intro c hc
    rw [List.splitOn_cons_eq_if_modifyHead] at hc
    split at hc
    · rcases List.mem_cons.1 hc with rfl | hc
      · simp
      · exact ih c hc
    · rename_i hx
      generalize p.splitOn '/' = l at hc ih
      cases l with
      | nil => simp at hc
      | cons a l =>
        simp only [List.modifyHead_cons, List.mem_cons] at hc
        rcases hc with rfl | hc
        · intro h
          rcases List.mem_cons.1 h with h | h
          · subst h; exact hx rfl
          · exact ih a (by simp) h
        · exact ih c (by simp [hc])

/-- A component that stays in a cleaned path. -/
def Kept (c : List Char) : Prop := c ≠ [] ∧ c ≠ ['.'] ∧ '/' ∉ c

theorem cleanStep_kept {rooted : Bool} {stack : List (List Char)} {c : List Char} (hs : ∀ x ∈ stack, Kept x) (hc : '/' ∉ c) :
    ∀ x ∈ cleanStep rooted stack c, Kept x := by
  unfold cleanStep
  split
  · exact hs
  · rename_i h1
    have hk : Kept c := ⟨fun h => h1 (.inl h), fun h => h1 (.inr h), hc⟩
    have hcons : ∀ st : List (List Char), (∀ x ∈ st, Kept x) → ∀ x ∈ c :: st, Kept x := by
      intro st h x hx
      rcases List.mem_cons.1 hx with rfl | hx
      · exact hk
      · exact h x hx
    split
    · cases stack with
      | nil => dsimp only; split
               · simp
               · exact hcons [] (by simp)
      | cons t rest =>
        dsimp only
        split
        · exact hcons _ hs
        · exact fun x hx => hs x (by simp [hx])
    · exact hcons _ hs

theorem clean_kept {rooted : Bool} (cs : List (List Char)) (stack : List (List Char)) (hs : ∀ x ∈ stack, Kept x)
    (hc : ∀ c ∈ cs, '/' ∉ c) : ∀ x ∈ cs.foldl (cleanStep rooted) stack, Kept x := by
  induction cs generalizing stack with
  | nil => exact hs
  | cons c cs ih => exact ih _ (cleanStep_kept hs (hc c (by simp))) (fun x hx => hc x (by simp [hx]))

/-- The step of `path.Clean` does not change where a path leads. -/
theorem cleanStep_walk {rooted : Bool} {start : List (List Char)} (hroot : rooted = true → start = [])
    {stack : List (List Char)} {c : List Char} (hs : ∀ x ∈ stack, Kept x) :
    (cleanStep rooted stack c).reverse.foldl pathStep start = pathStep (stack.reverse.foldl pathStep start) c := by
  unfold cleanStep
  split
  · rename_i h; unfold pathStep; rw [if_pos h]
  · split
    · rename_i h
      subst h
      cases stack with
      | nil =>
        cases rooted with
        | false => rfl
        | true => rw [hroot rfl]; rfl
      | cons t rest =>
        dsimp only
        split
        · simp only [List.reverse_cons, List.foldl_append, List.foldl_cons, List.foldl_nil]
        · rename_i ht
          have hk := hs t (by simp)
          simp only [List.reverse_cons, List.foldl_append, List.foldl_cons, List.foldl_nil]
          generalize rest.reverse.foldl pathStep start = d
          have e1 : pathStep d t = d ++ [t] := by
            unfold pathStep
            rw [if_neg (fun h => h.elim hk.1 hk.2.1), if_neg ht]
          rw [e1]
          unfold pathStep
          rw [if_neg (by decide), if_pos rfl, List.dropLast_concat]
    · simp only [List.reverse_cons, List.foldl_append, List.foldl_cons, List.foldl_nil]

theorem clean_walk {rooted : Bool} {start : List (List Char)} (hroot : rooted = true → start = [])
    (cs : List (List Char)) (stack : List (List Char)) (hs : ∀ x ∈ stack, Kept x) (hc : ∀ c ∈ cs, '/' ∉ c) :
    (cs.foldl (cleanStep rooted) stack).reverse.foldl pathStep start
      = cs.foldl pathStep (stack.reverse.foldl pathStep start) := by
  induction cs generalizing stack with
  | nil => rfl
  | cons c cs ih =>
    rw [List.foldl_cons, ih _ (cleanStep_kept hs (hc c (by simp))) (fun x hx => hc x (by simp [hx])), cleanStep_walk hroot hs,
      List.foldl_cons]

theorem step_nil (d : List (List Char)) : pathStep d [] = d := by unfold pathStep; rw [if_pos (.inl rfl)]

/-- Splitting what `path.Clean` joined, and walking. -/
theorem joined_walk {out : List (List Char)} (h : ∀ x ∈ out, Kept x) (start : List (List Char)) :
    ((['/'].intercalate out).splitOn '/').foldl pathStep start = out.foldl pathStep start := by
  cases out with
  | nil => simp [step_nil]
  | cons a l => rw [List.splitOn_intercalate '/' (fun x hx => (h x hx).2.2) (by simp)]

theorem head_intercalate {a : List Char} {l : List (List Char)} (ha : a ≠ []) :
    (['/'].intercalate (a :: l)).head? = a.head? := by
  cases a with
  | nil => exact absurd rfl ha
  | cons x xs =>
    cases l with
    | nil => simp
    | cons b l => simp [List.intercalate_cons_cons]

theorem isAbs_iff {p : List Char} : isAbs p = true ↔ p.head? = some '/' := by unfold isAbs; simp

/-- `path.Clean` keeps the place. -/
theorem locate_clean (cwd : List (List Char)) (p : List Char) : locate cwd (clean p) = locate cwd p := by
  unfold clean
  dsimp only
  have hk := clean_kept (rooted := isAbs p) (p.splitOn '/') [] (by simp) (comp_no_slash p)
  have hk' : ∀ x ∈ ((p.splitOn '/').foldl (cleanStep (isAbs p)) []).reverse, Kept x := by simpa using hk
  split
  · rename_i h
    have hw := clean_walk (rooted := isAbs p) (start := []) (fun _ => rfl) (p.splitOn '/') [] (by simp) (comp_no_slash p)
    unfold locate
    rw [if_pos (isAbs_iff.1 h), if_pos (show ('/' :: _ : List Char).head? = some '/' from rfl)]
    rw [show ∀ b, ('/' :: b : List Char) = [] ++ '/' :: b from fun _ => rfl, List.splitOn_append_cons_self, List.splitOn_nil,
      List.foldl_append, List.foldl_cons, List.foldl_nil, step_nil, joined_walk hk']
    exact hw
  · rename_i h
    have hn : ¬ p.head? = some '/' := fun h' => h (isAbs_iff.2 h')
    have hw := clean_walk (rooted := isAbs p) (start := cwd) (fun h' => absurd h' h) (p.splitOn '/') [] (by simp)
      (comp_no_slash p)
    generalize ((p.splitOn '/').foldl (cleanStep (isAbs p)) []).reverse = out at hk' hw ⊢
    unfold locate
    rw [if_neg hn]
    cases out with
    | nil =>
      rw [if_pos (show ['/'].intercalate ([] : List (List Char)) = [] from rfl)]
      rw [if_neg (show ¬ (['.'] : List Char).head? = some '/' by decide)]
      simp only [List.foldl_nil, List.reverse_nil] at hw
      refine Eq.trans ?_ hw
      rw [List.splitOn_eq_singleton (by decide), List.foldl_cons, List.foldl_nil]
      unfold pathStep; rw [if_pos (.inr rfl)]
    | cons a l =>
      have ha := hk' a (by simp)
      have hh := head_intercalate (l := l) ha.1
      have hne : ¬ ['/'].intercalate (a :: l) = [] := by
        intro h0
        rw [h0] at hh
        obtain ⟨x, xs, hx⟩ := List.exists_cons_of_ne_nil ha.1
        rw [hx] at hh; cases hh
      rw [if_neg hne]
      have hns : ¬ (['/'].intercalate (a :: l)).head? = some '/' := by
        rw [hh]
        intro h0
        obtain ⟨x, xs, hx⟩ := List.exists_cons_of_ne_nil ha.1
        rw [hx] at h0
        have : x = '/' := by simpa using h0
        exact ha.2.2 (by rw [hx, this]; simp)
      rw [if_neg hns, joined_walk hk']
      exact hw

theorem clean_ne (p : List Char) : clean p ≠ [] := by
  unfold clean
  dsimp only
  split
  · simp
  · split
    · simp
    · assumption

theorem splitDir_file {file : List Char} (h : '/' ∉ file) : splitDir file = [] := by
  unfold splitDir
  have : file.reverse.dropWhile (· != '/') = [] := by
    rw [List.dropWhile_eq_nil_iff]
    intro x hx
    have : x ≠ '/' := fun e => h (e ▸ (List.mem_reverse.1 hx))
    simpa using this
  rw [this]; rfl

theorem splitDir_append {dir file : List Char} (h : '/' ∉ file) : splitDir (dir ++ '/' :: file) = dir ++ ['/'] := by
  unfold splitDir
  have h2 : ∀ x ∈ file.reverse, (x != '/') = true := by
    intro x hx
    have : x ≠ '/' := fun e => h (e ▸ (List.mem_reverse.1 hx))
    simpa using this
  rw [List.reverse_append, List.reverse_cons, List.append_assoc, List.dropWhile_append_of_pos h2]
  simp

theorem step_file {d : List (List Char)} {file : List Char} (h : FileName file) : pathStep d file = d ++ [file] := by
  unfold pathStep
  rw [if_neg (fun h' => h'.elim h.1 h.2.2.1), if_neg h.2.2.2]

theorem head_append_slash {dir x : List Char} : (dir ++ '/' :: x).head? = some '/' ↔ (dir ++ ['/']).head? = some '/' := by
  cases dir <;> simp

/-- Going on from a folder. -/
theorem locate_append (cwd : List (List Char)) {b p : List Char} (hb : b ≠ []) (hp : p.head? ≠ some '/') :
    locate cwd (b ++ '/' :: p) = locate (locate cwd b) p := by
  unfold locate
  rw [List.splitOn_append_cons_self, List.foldl_append, if_neg hp]
  have : (b ++ '/' :: p).head? = b.head? := by cases b with
    | nil => exact absurd rfl hb
    | cons x xs => rfl
  rw [this]

/-- The same if the rest begins with a slash or the first part is empty, provided nothing is lost: a trailing part below a folder. -/
theorem locate_below (cwd : List (List Char)) {b file : List Char} (hb : b ≠ []) (h : FileName file) :
    locate cwd (b ++ '/' :: file) = locate cwd b ++ [file] := by
  have hf : file.head? ≠ some '/' := by
    intro h'
    cases file with
    | nil => cases h'
    | cons x xs => exact h.2.1 (by rw [show x = '/' by simpa using h']; simp)
  rw [locate_append cwd hb hf]
  unfold locate
  rw [if_neg hf, List.splitOn_eq_singleton h.2.1, List.foldl_cons, List.foldl_nil, step_file h]

/-- The base path is the folder of the configuration file. -/
theorem locate_pathDir (cwd : List (List Char)) {cp : List Char} (h : FilePath cp) :
    locate cwd (pathDir cp) = (locate cwd cp).dropLast := by
  unfold pathDir
  rw [locate_clean]
  obtain ⟨dir, file, hf, he | rfl⟩ := h
  · subst he
    have hfh : ¬ cp.head? = some '/' := by
      intro h'
      cases cp with
      | nil => cases h'
      | cons x xs => exact hf.2.1 (by rw [show x = '/' by simpa using h']; simp)
    rw [splitDir_file hf.2.1]
    unfold locate
    rw [if_neg hfh, List.splitOn_eq_singleton hf.2.1, List.foldl_cons, List.foldl_nil, step_file hf, List.dropLast_concat]
    rw [if_neg (by simp), List.splitOn_nil, List.foldl_cons, List.foldl_nil, step_nil]
  · rw [splitDir_append hf.2.1]
    unfold locate
    rw [List.splitOn_append_cons_self, List.splitOn_append_cons_self, List.foldl_append, List.foldl_append,
      List.splitOn_eq_singleton hf.2.1, List.splitOn_nil]
    simp only [head_append_slash (x := file)]
    rw [List.foldl_cons, List.foldl_nil, step_nil, List.foldl_cons, List.foldl_nil, step_file hf, List.dropLast_concat]

theorem pathDir_ne (cp : List Char) : pathDir cp ≠ [] := clean_ne _

theorem resolve_ne (cp p : List Char) : resolvePath (pathDir cp) p ≠ [] := by
  unfold resolvePath
  split
  · rename_i h; rintro rfl; cases h
  · simp

/-- A name with an extension is a file name. -/
theorem fileName_ext {n e : List Char} (hn : '/' ∉ n) (he : '/' ∉ e) (hl : 3 ≤ e.length) : FileName (n ++ e) := by
  refine ⟨?_, by simp [hn, he], ?_, ?_⟩ <;> intro h <;> have := congrArg List.length h <;>
    simp only [List.length_append, List.length_cons, List.length_nil] at this <;> omega

end Verif.Paths
