import Verif.Spec.LMDeploy
import Verif.Props.Paths
import Verif.Props.Config
import Verif.Props.Deploy
/- The files of C97. -/
namespace Verif.LMDeploy
open Verif Verif.Spec Verif.Conf Verif.Paths
open Verif.Props (loadedModel C89_lm_files C95_model charsOf_text ext_inj)

theorem gramsName_inj {j k : Nat} (h : gramsName j = gramsName k) : j = k := by
  have := List.append_cancel_right h
  rw [Nat.toString_eq_ofList_toDigits, Nat.toString_eq_ofList_toDigits, String.toList_ofList, String.toList_ofList] at this
  rw [← Nat.ofDigitChars_ten_toDigits (n := j), this, Nat.ofDigitChars_ten_toDigits]

theorem gramsName_ne (k : Nat) (name : List Char) : gramsName k ≠ name ++ ".cdb".toList ∧ gramsName k ≠ name ++ ".lm".toList := by
  constructor
  · intro h
    have := (ext_inj h (by decide) (by decide) (by decide)).1
    revert this; decide
  · intro h
    have h1 := congrArg List.reverse h
    unfold gramsName at h1
    rw [List.reverse_append, List.reverse_append] at h1
    have e1 : "-gm".toList.reverse = ['m', 'g', '-'] := by decide
    have e2 : ".lm".toList.reverse = ['m', 'l', '.'] := by decide
    rw [e1, e2] at h1
    simp at h1

variable {cwd : Place} {path : List Char} {c : ModelConfig}

theorem grams_place (k : Nat) : gramsOf cwd path c k = folderOf cwd path c ++ [gramsName k] :=
  (C89_lm_files cwd path ⟨[], (pathsOf c).source, (pathsOf c).output⟩ (by simp) k).2.2

theorem model_places (hn : '/' ∉ (pathsOf c).name) :
    dictionaryOf cwd path c = folderOf cwd path c ++ [(pathsOf c).name ++ ".cdb".toList] ∧
    binaryOf cwd path c = folderOf cwd path c ++ [(pathsOf c).name ++ ".lm".toList] :=
  ⟨(C89_lm_files cwd path (pathsOf c) hn 0).1, (C89_lm_files cwd path (pathsOf c) hn 0).2.1⟩

theorem writeGrams_other : ∀ {outs : List Bytes} {k : Nat} {fs : FileMap} {p : Place},
    (∀ i, i < outs.length → p ≠ gramsOf cwd path c (k + i + 1)) → writeGrams cwd path c k outs fs p = fs p := by
  intro outs
  induction outs with
  | nil => intros; rfl
  | cons out outs ih =>
    intro k fs p h
    rw [writeGrams, ih]
    · exact Function.update_of_ne (h 0 (by simp)) _ _
    · intro i hi
      have := h (i + 1) (by simpa using hi)
      rwa [show k + (i + 1) + 1 = k + 1 + i + 1 by omega] at this

theorem writeGrams_at : ∀ {outs : List Bytes} {k : Nat} {fs : FileMap} {i : Nat} {out : Bytes}, outs[i]? = some out →
    writeGrams cwd path c k outs fs (gramsOf cwd path c (k + i + 1)) = some out := by
  intro outs
  induction outs with
  | nil => intro k fs i out h; simp at h
  | cons o outs ih =>
    intro k fs i out h
    rw [writeGrams]
    cases i with
    | zero =>
      rw [writeGrams_other]
      · have : o = out := by simpa using h
        rw [this]
        exact Function.update_self _ _ _
      · intro j _ e
        rw [grams_place, grams_place] at e
        have := gramsName_inj (by simpa using e)
        omega
    | succ i =>
      have := ih (k := k + 1) (fs := Function.update fs (gramsOf cwd path c (k + 1)) (some o)) (i := i) (by simpa using h)
      rwa [show k + 1 + i + 1 = k + (i + 1) + 1 by omega] at this

section
variable {isDir : Place → Bool} {lower : Nat → Nat} {sort : List Alphabet → List Alphabet} {C : CDBFile} {mphFuel : Nat}

/-- A count changes only n-gram files of its folder. -/
theorem count_spares {path : List Char} {file : Option Bytes} {fs fs' : FileMap} {e : Option Err}
    (h : CountCommand cwd isDir lower sort path file fs fs' e) {p : Place}
    (hp : ∀ c, readModelConfig path file = .ok c → ∀ k, p ≠ folderOf cwd path c ++ [gramsName k]) : fs' p = fs p := by
  cases h with
  | noConfig _ => rfl
  | noSource _ _ => rfl
  | noFolder _ _ => rfl
  | stopped hc h => exact h p fun k _ _ => by rw [grams_place]; exact hp _ hc k
  | ok hc _ _ _ _ => exact writeGrams_other fun i _ => by rw [grams_place]; exact hp _ hc _

/-- A build changes only its dictionary and its binary model. -/
theorem build_spares {path : List Char} {file : Option Bytes} {fs fs' : FileMap} {e : Option Err}
    (h : BuildCommand cwd isDir C mphFuel path file fs fs' e) {p : Place}
    (hp : ∀ c, readModelConfig path file = .ok c → p ≠ dictionaryOf cwd path c ∧ p ≠ binaryOf cwd path c) : fs' p = fs p := by
  cases h with
  | noConfig _ => rfl
  | noFolder _ _ => rfl
  | stopped hc h => exact h p (hp _ hc).1 (hp _ hc).2
  | ok hc _ _ _ h1 _ _ _ _ =>
    subst h1
    exact (Function.update_of_ne (hp _ hc).2 _ _).trans (Function.update_of_ne (hp _ hc).1 _ _)

/-- Such a run is one of the command. -/
theorem unread_run {path : List Char} {file : Option Bytes} {fs fs' : FileMap} (h : UnreadBuild cwd isDir C mphFuel path file fs fs') :
    BuildCommand cwd isDir C mphFuel path file fs fs' (some (.other "open")) := by
  cases h with
  | mk hc _ _ _ _ h1 _ _ _ _ _ =>
    subst h1
    exact .stopped hc fun p hp _ => Function.update_of_ne hp _ _

theorem history_spares {es : List Event} {fs fs' : FileMap} (h : History cwd isDir lower sort C mphFuel fs es fs') {p : Place}
    (hp : ∀ e ∈ es, ∀ a b, e.Run cwd isDir lower sort C mphFuel a b → b p = a p) : fs' p = fs p := by
  induction h with
  | nil => rfl
  | cons h1 _ ih =>
    rw [ih fun e he => hp e (List.mem_cons_of_mem _ he)]
    exact hp _ List.mem_cons_self _ _ h1

theorem last_ne {F F' : Place} {n m : List Char} (h : F ++ [n] = F' ++ [m]) : F = F' ∧ n = m := by
  obtain ⟨h1, h2⟩ := List.append_inj' h rfl
  exact ⟨h1, by simpa using h2⟩

theorem event_grams {e : Event} {folder : Place} (h : SparesGrams cwd folder e) {a b : FileMap}
    (hr : e.Run cwd isDir lower sort C mphFuel a b) (k : Nat) : b (folder ++ [gramsName k]) = a (folder ++ [gramsName k]) := by
  cases e with
  | count path file =>
    obtain ⟨e, hr⟩ := hr
    exact count_spares hr fun c hc j he => h c hc (last_ne he).1.symm
  | build path file =>
    obtain ⟨e, hr⟩ := hr
    refine build_spares hr fun c hc => ?_
    rw [(model_places (h c hc)).1, (model_places (h c hc)).2]
    exact ⟨fun he => (gramsName_ne k _).1 (last_ne he).2, fun he => (gramsName_ne k _).2 (last_ne he).2⟩
  | other place => exact hr _ (h k).symm

theorem event_model {e : Event} {folder : Place} {name : List Char} (h : SparesModel cwd folder name e) {a b : FileMap}
    (hr : e.Run cwd isDir lower sort C mphFuel a b) {ext : List Char} (hx : ext = ".cdb".toList ∨ ext = ".lm".toList) :
    b (folder ++ [name ++ ext]) = a (folder ++ [name ++ ext]) := by
  cases e with
  | count path file =>
    obtain ⟨e, hr⟩ := hr
    refine count_spares hr fun c hc j he => ?_
    have := (last_ne he).2.symm
    rcases hx with rfl | rfl
    · exact (gramsName_ne j name).1 this
    · exact (gramsName_ne j name).2 this
  | build path file =>
    obtain ⟨e, hr⟩ := hr
    refine build_spares hr fun c hc => ?_
    have hne : ∀ ext', (ext' = ".cdb".toList ∨ ext' = ".lm".toList) →
        folder ++ [name ++ ext] ≠ folderOf cwd path c ++ [(pathsOf c).name ++ ext'] := by
      intro ext' hx' he
      obtain ⟨h1, h2⟩ := last_ne he
      have h3 := (ext_inj h2 (by rcases hx with rfl | rfl <;> rcases hx' with rfl | rfl <;> decide)
        (by rcases hx with rfl | rfl <;> decide) (by rcases hx' with rfl | rfl <;> decide)).2
      rcases h.2 c hc with h' | h'
      · exact h' h1.symm
      · exact h' h3.symm
    rw [(model_places (h.1 c hc)).1, (model_places (h.1 c hc)).2]
    exact ⟨hne _ (.inl rfl), hne _ (.inr rfl)⟩
  | other place =>
    refine hr _ ?_
    rcases hx with rfl | rfl
    · exact h.1.symm
    · exact h.2.symm

end

/-! ### A described model -/

theorem paths_loaded (path : List Char) (d : ModelText) : pathsOf (loadedModel path d) = d.paths := by
  unfold pathsOf loadedModel ModelText.paths
  simp only [charsOf_text]

theorem folder_loaded (cwd : Place) (path : List Char) (d : ModelText) : folderOf cwd path (loadedModel path d) = d.folder cwd path := by
  unfold folderOf ModelText.folder
  rw [paths_loaded]

theorem source_loaded (cwd : Place) (path : List Char) (d : ModelText) : sourceOf cwd path (loadedModel path d) = d.sourceFile cwd path := by
  unfold sourceOf ModelText.sourceFile
  rw [paths_loaded]

end Verif.LMDeploy
