import Verif.Props.Config
/-
A configuration file, for the property theorems C95.
-/
namespace Verif.Props
open Verif Spec Verif.Conf

theorem plain_text {s : List Char} (h : ∀ c ∈ s, c ≠ '"' ∧ c ≠ '\\' ∧ 32 ≤ c.toNat) : StringText s s := by
  induction s with
  | nil => exact .nil
  | cons c s ih =>
    obtain ⟨h1, h2, h3⟩ := h c List.mem_cons_self
    exact .plain h1 h2 h3 (ih fun x hx => h x (List.mem_cons_of_mem _ hx))

/-- Two descriptions: one with all fields, one with few, a key in another case, an unknown key and an escape. -/
def configText : List Char :=
  ("[\n  {\"driver\": \"DISC\", \"name\": \"cars\", \"nGramSize\": 3, \"alphabet\": [\"english\", \"$\"], \"source\": \"cars.dict\", " ++
   "\"output\": \"db\", \"pad\": \"$\", \"wrap\": [\"$\", \"$\"]},\n  {\"DRIVER\":\"RAM\",\"name\":\"\\u006dodels\",\"since\":2019}\n]\n").toList

def fullMembers : List (List Char × JVal) :=
  [("driver".toList, .str "DISC".toList), ("name".toList, .str "cars".toList), ("nGramSize".toList, .num "3".toList),
   ("alphabet".toList, .arr [.str "english".toList, .str "$".toList]), ("source".toList, .str "cars.dict".toList),
   ("output".toList, .str "db".toList), ("pad".toList, .str "$".toList), ("wrap".toList, .arr [.str "$".toList, .str "$".toList])]

def fewMembers : List (List Char × JVal) :=
  [("DRIVER".toList, .str "RAM".toList), ("name".toList, .str "models".toList), ("since".toList, .num "2019".toList)]

def fullText : IndexText :=
  ⟨"DISC".toList, "cars".toList, 3, "cars.dict".toList, "db".toList, ["english".toList, "$".toList], "$".toList, ("$".toList, "$".toList)⟩

def fewText : IndexText := ⟨"RAM".toList, "models".toList, 0, [], [], [], [], ([], [])⟩

theorem str_written {s : List Char} (h : ∀ c ∈ s, c ≠ '"' ∧ c ≠ '\\' ∧ 32 ≤ c.toNat) : JsonWritten (.value (.str s)) ('"' :: (s ++ ['"'])) :=
  .str (plain_text h)

theorem two_texts {a b : List Char} (ha : ∀ c ∈ a, c ≠ '"' ∧ c ≠ '\\' ∧ 32 ≤ c.toNat) (hb : ∀ c ∈ b, c ≠ '"' ∧ c ≠ '\\' ∧ 32 ≤ c.toNat) :
    JsonWritten (.value (.arr [.str a, .str b])) ('[' :: (([] ++ ('"' :: (a ++ ['"']) ++ ([] ++ ',' :: ([' '] ++ ('"' :: (b ++ ['"']) ++ []))))) ++ [']'])) :=
  .arr (.elements (by simp [Blanks]) (str_written ha) (by simp [Blanks]) (.element (by simp [Blanks]) (str_written hb) (by simp [Blanks])))

theorem configText_json : JsonText (.arr ([fullMembers, fewMembers].map .obj)) configText := by
  have b0 : Blanks [] := by simp [Blanks]
  have b1 : Blanks [' '] := by simp [Blanks]
  have b3 : Blanks "\n  ".toList := by unfold Blanks; decide
  have bn : Blanks ['\n'] := by unfold Blanks; decide
  have n3 : NumberText "3".toList := ⟨[], "3".toList, [], [], by decide, .inl rfl, .inr ⟨⟨by decide, by decide⟩, by decide⟩, .inl rfl, .inl rfl⟩
  have n2019 : NumberText "2019".toList :=
    ⟨[], "2019".toList, [], [], by decide, .inl rfl, .inr ⟨⟨by decide, by decide⟩, by decide⟩, .inl rfl, .inl rfl⟩
  have esc : StringText "models".toList ("\\u006d".toList ++ "odels".toList) :=
    .hex (c := 'm') (s := "odels".toList) ⟨'0', '0', '6', 'd', 0, 0, 6, 13, by decide, by decide, by decide, by decide, by decide, by decide⟩
      (plain_text (by decide))
  have h1 := JsonWritten.obj (.members b0 (plain_text (s := "driver".toList) (by decide)) b0 b1 (str_written (s := "DISC".toList) (by decide)) b0
    (.members b1 (plain_text (s := "name".toList) (by decide)) b0 b1 (str_written (s := "cars".toList) (by decide)) b0
    (.members b1 (plain_text (s := "nGramSize".toList) (by decide)) b0 b1 (.num n3) b0
    (.members b1 (plain_text (s := "alphabet".toList) (by decide)) b0 b1
      (two_texts (a := "english".toList) (b := "$".toList) (by decide) (by decide)) b0
    (.members b1 (plain_text (s := "source".toList) (by decide)) b0 b1 (str_written (s := "cars.dict".toList) (by decide)) b0
    (.members b1 (plain_text (s := "output".toList) (by decide)) b0 b1 (str_written (s := "db".toList) (by decide)) b0
    (.members b1 (plain_text (s := "pad".toList) (by decide)) b0 b1 (str_written (s := "$".toList) (by decide)) b0
    (.member b1 (plain_text (s := "wrap".toList) (by decide)) b0 b1
      (two_texts (a := "$".toList) (b := "$".toList) (by decide) (by decide)) b0))))))))
  have h2 := JsonWritten.obj (.members b0 (plain_text (s := "DRIVER".toList) (by decide)) b0 b0 (str_written (s := "RAM".toList) (by decide)) b0
    (.members b0 (plain_text (s := "name".toList) (by decide)) b0 b0 (.str esc) b0
    (.member b0 (plain_text (s := "since".toList) (by decide)) b0 b0 (.num n2019) b0)))
  exact ⟨[], _, ['\n'], by decide +kernel, b0, .arr (.elements b3 h1 b0 (.element b3 h2 bn)), bn⟩

theorem fullText_described : DescribesIndex fullMembers fullText where
  driver := by
    have : given fullMembers "driver" = [.str "DISC".toList] := rfl
    exact ⟨by rw [this]; simp [TextValue], by rw [this]; rfl⟩
  name := by
    have : given fullMembers "name" = [.str "cars".toList] := rfl
    exact ⟨by rw [this]; simp [TextValue], by rw [this]; rfl⟩
  nGramSize := by
    have : given fullMembers "nGramSize" = [.num "3".toList] := rfl
    have h : IntValue (.num "3".toList) 3 := ⟨_, rfl, .inl ⟨⟨by decide, by decide⟩, by decide⟩, by decide, by decide⟩
    exact ⟨by rw [this]; rintro v hv; rw [List.mem_singleton] at hv; exact ⟨3, hv ▸ h⟩, by rw [this]; exact h⟩
  source := by
    have : given fullMembers "source" = [.str "cars.dict".toList] := rfl
    exact ⟨by rw [this]; simp [TextValue], by rw [this]; rfl⟩
  output := by
    have : given fullMembers "output" = [.str "db".toList] := rfl
    exact ⟨by rw [this]; simp [TextValue], by rw [this]; rfl⟩
  alphabet := by
    have : named fullMembers "alphabet" = [.arr [.str "english".toList, .str "$".toList]] := rfl
    have h : TextsValue (.arr [.str "english".toList, .str "$".toList]) ["english".toList, "$".toList] :=
      .inr ⟨_, rfl, .cons (.inl rfl) (.cons (.inl rfl) .nil)⟩
    exact ⟨by rw [this]; rintro v hv; rw [List.mem_singleton] at hv; exact ⟨_, hv ▸ h⟩, by rw [this]; exact h⟩
  pad := by
    have : given fullMembers "pad" = [.str "$".toList] := rfl
    exact ⟨by rw [this]; simp [TextValue], by rw [this]; rfl⟩
  wrap := by
    have : given fullMembers "wrap" = [.arr [.str "$".toList, .str "$".toList]] := rfl
    have h : PairValue (.arr [.str "$".toList, .str "$".toList]) ("$".toList, "$".toList) := .inr (.inr ⟨_, _, [], rfl, rfl⟩)
    exact ⟨by rw [this]; rintro v hv; rw [List.mem_singleton] at hv; exact ⟨_, hv ▸ h⟩, by rw [this]; exact h⟩

theorem fewText_described : DescribesIndex fewMembers fewText where
  driver := by
    have : given fewMembers "driver" = [.str "RAM".toList] := rfl
    exact ⟨by rw [this]; simp [TextValue], by rw [this]; rfl⟩
  name := by
    have : given fewMembers "name" = [.str "models".toList] := rfl
    exact ⟨by rw [this]; simp [TextValue], by rw [this]; rfl⟩
  nGramSize := ⟨(fun _ h => nomatch h), rfl⟩
  source := ⟨(fun _ h => nomatch h), rfl⟩
  output := ⟨(fun _ h => nomatch h), rfl⟩
  alphabet := ⟨(fun _ h => nomatch h), rfl⟩
  pad := ⟨(fun _ h => nomatch h), rfl⟩
  wrap := ⟨(fun _ h => nomatch h), rfl⟩

/-- The hypotheses of `C95_descriptions` are met by this file. -/
theorem configText_read : readConfigs "/etc/suggest/config.json".toList (some (utf8 configText)) =
    .ok [loadedIndex "/etc/suggest/config.json".toList fullText, loadedIndex "/etc/suggest/config.json".toList fewText] :=
  C95_descriptions _ configText_json (.cons fullText_described (.cons fewText_described .nil))

/-- Those of `C95_no_size_panics` by its second description … -/
example : given fewMembers "nGramSize" = [] := rfl

/-- … and those of `C95_driver_wrong` by a description with the driver "disc". -/
example : (⟨utf8 "disc".toList, [], 3, [], [], [], [], ([], []), []⟩ : Description).fromDisc = true ∧
    (⟨utf8 "disc".toList, [], 3, [], [], [], [], ([], []), []⟩ : Description).indexed = false :=
  C95_driver_wrong (by decide +kernel) (by decide +kernel)

/-- A beginning of this file is refused, as `C95_truncated` says. -/
example (p q : Bytes) (h : p ++ q = utf8 configText) (hq : 93 ∈ q) (path : List Char) : ∃ e, readConfigs path (some p) = .error e := by
  cases hr : readConfigs path (some p) with
  | error e => exact ⟨e, rfl⟩
  | ok ds =>
    have ht := C95_descriptions path configText_json (.cons fullText_described (.cons fewText_described .nil))
    rw [← h] at ht
    have := (C95_truncated ht hr).2 93 hq
    exact absurd this (by decide)

/-- The configuration of a language model. -/
def lmMembers : List (List Char × JVal) :=
  [("name".toList, .str "lm".toList), ("nGramOrder".toList, .num "3".toList), ("separators".toList, .arr [.str ".".toList, .str "!".toList])]

def lmConfigText : List Char := "{\"name\":\"lm\",\"nGramOrder\":3,\"separators\":[\".\", \"!\"]}".toList

def lmText : ModelText := ⟨"lm".toList, 3, [], [], [], [".".toList, "!".toList], [], []⟩

theorem lmConfigText_json : JsonText (.obj lmMembers) lmConfigText := by
  have b0 : Blanks [] := by simp [Blanks]
  have n3 : NumberText "3".toList := ⟨[], "3".toList, [], [], by decide, .inl rfl, .inr ⟨⟨by decide, by decide⟩, by decide⟩, .inl rfl, .inl rfl⟩
  have h := JsonWritten.obj (.members b0 (plain_text (s := "name".toList) (by decide)) b0 b0 (str_written (s := "lm".toList) (by decide)) b0
    (.members b0 (plain_text (s := "nGramOrder".toList) (by decide)) b0 b0 (.num n3) b0
    (.member b0 (plain_text (s := "separators".toList) (by decide)) b0 b0
      (two_texts (a := ".".toList) (b := "!".toList) (by decide) (by decide)) b0)))
  exact ⟨[], _, [], by decide +kernel, b0, h, b0⟩

theorem lmText_described : DescribesModel lmMembers lmText where
  name := by
    have : given lmMembers "name" = [.str "lm".toList] := rfl
    exact ⟨by rw [this]; simp [TextValue], by rw [this]; rfl⟩
  nGramOrder := by
    have : given lmMembers "nGramOrder" = [.num "3".toList] := rfl
    have h : ByteValue (.num "3".toList) 3 :=
      ⟨_, rfl, .inl ⟨⟨by decide, by decide⟩, by decide⟩, ⟨by decide, by decide⟩, by decide⟩
    exact ⟨by rw [this]; rintro v hv; rw [List.mem_singleton] at hv; exact ⟨3, hv ▸ h⟩, by rw [this]; exact h⟩
  source := ⟨(fun _ h => nomatch h), rfl⟩
  output := ⟨(fun _ h => nomatch h), rfl⟩
  alphabet := ⟨(fun _ h => nomatch h), rfl⟩
  separators := by
    have : named lmMembers "separators" = [.arr [.str ".".toList, .str "!".toList]] := rfl
    have h : TextsValue (.arr [.str ".".toList, .str "!".toList]) [".".toList, "!".toList] :=
      .inr ⟨_, rfl, .cons (.inl rfl) (.cons (.inl rfl) .nil)⟩
    exact ⟨by rw [this]; rintro v hv; rw [List.mem_singleton] at hv; exact ⟨_, hv ▸ h⟩, by rw [this]; exact h⟩
  startSymbol := ⟨(fun _ h => nomatch h), rfl⟩
  endSymbol := ⟨(fun _ h => nomatch h), rfl⟩

/-- The hypotheses of `C95_model` are met. -/
example : readModelConfig "lm.json".toList (some (utf8 lmConfigText)) = .ok (loadedModel "lm.json".toList lmText) :=
  C95_model _ lmConfigText_json lmText_described

end Verif.Props
