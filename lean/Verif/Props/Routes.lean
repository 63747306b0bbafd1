import Verif.Spec.Routes
import Verif.Props.Wire
import Verif.Props.WirePredict
/-
Property theorems C88 and C90: what becomes of every request, by its method and its path.
-/
namespace Verif.Props
open Verif Spec Verif.Wire

theorem pathOf_last {segs : List Bytes} (h : ∀ s ∈ segs, PathSegment s) (slash : Bool) :
    (pathOf segs slash).getLast? = some 47 ↔ slash = true ∨ segs = [] := by
  unfold pathOf
  by_cases hne : segs = []
  · subst hne; simp
  obtain ⟨l, s, rfl⟩ : ∃ l s, segs = l ++ [s] := ⟨_, _, (List.dropLast_append_getLast hne).symm⟩
  have hs := h s (by simp)
  cases slash with
  | true =>
    have e : ∀ x : Bytes, (47 :: (x ++ [47])).getLast? = some 47 := fun x => getLast_slash (47 :: x)
    simp [e]
  | false =>
    simp only [Bool.false_eq_true, false_and, if_false, List.append_nil, false_or, hne, iff_false]
    have : ∃ p, 47 :: ((l ++ [s]).intersperse [47]).flatten = p ++ s := by
      clear hne h
      suffices h : ∃ p, ((l ++ [s]).intersperse [47]).flatten = p ++ s by
        obtain ⟨p, h⟩ := h
        exact ⟨47 :: p, by rw [h]; rfl⟩
      induction l with
      | nil => exact ⟨[], by simp⟩
      | cons x l ih =>
        obtain ⟨p, ih⟩ := ih
        cases l with
        | nil => exact ⟨x ++ [47], by simp [List.intersperse]⟩
        | cons y l =>
          refine ⟨x ++ 47 :: p, ?_⟩
          have e : ((x :: y :: l ++ [s]).intersperse [47]).flatten = x ++ 47 :: ((y :: l ++ [s]).intersperse [47]).flatten := by
            simp [List.intersperse]
          rw [e, ih]; simp
    obtain ⟨p, e⟩ := this
    rw [e, List.getLast?_append_of_ne_nil _ hs.1, List.getLast?_eq_some_getLast hs.1]
    intro h
    simp only [Option.some.injEq] at h
    exact hs.2.1 (h ▸ List.getLast_mem hs.1)

theorem pathOf_split {segs : List Bytes} (h : ∀ s ∈ segs, PathSegment s) (slash : Bool) :
    splitOn 47 (pathOf segs slash) = [] :: (if segs = [] then [[]] else if slash then segs ++ [[]] else segs) := by
  unfold pathOf
  rw [splitOn_lead]
  by_cases hne : segs = []
  · subst hne; simp [splitOn]
  rw [if_neg hne]
  cases slash with
  | true => simp only [hne, ne_eq, not_false_eq_true, and_self, if_true]; rw [splitOn_join_slash (fun s hs => (h s hs).2.1) hne]
  | false =>
    simp only [Bool.false_eq_true, false_and, if_false, List.append_nil]
    rw [splitOn_join (fun s hs => (h s hs).2.1) hne]

theorem pathOf_parts {segs : List Bytes} (h : ∀ s ∈ segs, PathSegment s) (slash : Bool) :
    (if decide ((pathOf segs slash).getLast? = some 47) then (splitOn 47 (pathOf segs slash)).dropLast else splitOn 47 (pathOf segs slash)) =
      [] :: segs := by
  simp only [pathOf_last h slash, decide_eq_true_eq]
  rw [pathOf_split h slash]
  by_cases hne : segs = []
  · subst hne; simp
  · cases slash with
    | true =>
      simp only [true_or, if_true, hne, if_false]
      exact List.dropLast_concat (l₁ := [] :: segs)
    | false => simp [hne]

theorem pathOf_clean {segs : List Bytes} (h : ∀ s ∈ segs, PathSegment s) (slash : Bool) :
    cleanPath (pathOf segs slash) = pathOf segs slash := by
  have hparts : cleanParts [] (splitOn 47 (pathOf segs slash)) = segs.reverse := by
    rw [pathOf_split h slash, cleanParts, if_pos (.inl rfl)]
    by_cases hne : segs = []
    · subst hne; rfl
    rw [if_neg hne]
    cases slash with
    | true => simp only [if_true]; rw [cleanParts_tail, cleanParts_segments h, List.append_nil]
    | false => simp only [Bool.false_eq_true, if_false]; rw [cleanParts_segments h, List.append_nil]
  unfold cleanPath
  rw [hparts, List.reverse_reverse]
  simp only [pathOf_last h slash]
  unfold pathOf
  by_cases hne : segs = []
  · subst hne; simp
  · have hflat : (segs.intersperse [47]).flatten ≠ [] := by
      cases segs with
      | nil => exact absurd rfl hne
      | cons s l =>
        have hs := (h s (by simp)).1
        cases l <;> simp [List.intersperse, hs]
    cases slash <;> simp [hne, hflat]

/-- A path that is left as it is has this form. -/
theorem clean_pathOf {p : Bytes} (h : cleanPath p = p) : ∃ segs slash, (∀ s ∈ segs, PathSegment s) ∧ p = pathOf segs slash := by
  have hseg := cleanParts_stack (l := splitOn 47 p) (stack := []) splitOn_no (by simp)
  refine ⟨(cleanParts [] (splitOn 47 p)).reverse, decide (p.getLast? = some 47), fun s hs => hseg s (by simpa using hs), ?_⟩
  conv_lhs => rw [← h]
  unfold cleanPath pathOf
  dsimp only
  by_cases hne : (cleanParts [] (splitOn 47 p)).reverse = []
  · rw [hne]; simp
  · have hflat : (((cleanParts [] (splitOn 47 p)).reverse).intersperse [47]).flatten ≠ [] := by
      have h' : ∀ s ∈ (cleanParts [] (splitOn 47 p)).reverse, PathSegment s := fun s hs => hseg s (by simpa using hs)
      generalize (cleanParts [] (splitOn 47 p)).reverse = segs at *
      cases segs with
      | nil => exact absurd rfl hne
      | cons s l =>
        have hs := (h' s (by simp)).1
        cases l <;> simp [List.intersperse, hs]
    by_cases hl : p.getLast? = some 47 <;> simp [hl, hne, hflat]

theorem routed_unique {R : Type} {serves : Method → List Bytes → R → Prop} {a b c : R} {m : Method} {segs : List Bytes} {slash : Bool}
    (hs : ∀ r r', serves m segs r → serves m segs r' → r = r') {r r' : R} (h : Routed serves a b c m segs slash r)
    (h' : Routed serves a b c m segs slash r') : r = r' := by
  cases h <;> cases h' <;> simp_all
  exact hs _ _ ‹_› ‹_›

theorem search_iff {m : Method} {segs : List Bytes} {r : Route} : SearchServes m segs r ↔
    (m = .get ∧ segs = [] ∧ r = .home) ∨ (m = .get ∧ segs = [utf8 "dict".toList, utf8 "list".toList] ∧ r = .dictList) ∨
    (m = .post ∧ segs = [utf8 "internal".toList, utf8 "reindex".toList] ∧ r = .reindex) ∨
    (∃ d q, m = .get ∧ segs = [completeWord, d, q] ∧ r = .autocomplete d q) ∨
    ∃ d q, m = .get ∧ segs = [suggestWord, d, q] ∧ r = .suggest d q := by
  constructor
  · intro h
    cases h with
    | home => exact .inl ⟨rfl, rfl, rfl⟩
    | dictList => exact .inr (.inl ⟨rfl, rfl, rfl⟩)
    | reindex => exact .inr (.inr (.inl ⟨rfl, rfl, rfl⟩))
    | autocomplete d q => exact .inr (.inr (.inr (.inl ⟨d, q, rfl, rfl, rfl⟩)))
    | suggest d q => exact .inr (.inr (.inr (.inr ⟨d, q, rfl, rfl, rfl⟩)))
  · rintro (⟨rfl, rfl, rfl⟩ | ⟨rfl, rfl, rfl⟩ | ⟨rfl, rfl, rfl⟩ | ⟨d, q, rfl, rfl, rfl⟩ | ⟨d, q, rfl, rfl, rfl⟩)
    exacts [.home, .dictList, .reindex, .autocomplete d q, .suggest d q]

theorem dict_ne : utf8 "dict".toList ≠ utf8 "internal".toList := by decide +kernel

theorem search_unique {m : Method} {segs : List Bytes} (r r' : Route) (h : SearchServes m segs r) (h' : SearchServes m segs r') : r = r' := by
  rw [search_iff] at h h'
  have e := words_ne
  have e' := dict_ne
  rcases h with ⟨rfl, rfl, rfl⟩ | ⟨rfl, rfl, rfl⟩ | ⟨rfl, rfl, rfl⟩ | ⟨d, q, rfl, rfl, rfl⟩ | ⟨d, q, rfl, rfl, rfl⟩ <;>
    rcases h' with ⟨h1, h2, h3⟩ | ⟨h1, h2, h3⟩ | ⟨h1, h2, h3⟩ | ⟨d', q', h1, h2, h3⟩ | ⟨d', q', h1, h2, h3⟩ <;>
    simp_all

theorem search_routed {segs : List Bytes} (h : ∀ s ∈ segs, PathSegment s) (m : Method) (slash : Bool) :
    Routed SearchServes .redirect .notAllowed .notFound m segs slash (route m (pathOf segs slash)) := by
  unfold route
  rw [if_neg (by rw [pathOf_clean h]; simp)]
  unfold matchRoutes
  dsimp only
  rw [pathOf_parts h slash]
  simp only [pathOf_last h slash]
  match segs, h with
  | [], _ =>
    cases m with
    | get => exact .served .home (.inr rfl)
    | post => exact .otherMethod .home (by intro r h; cases h)
    | other => exact .otherMethod .home (by intro r h; cases h)
  | [a], _ => exact .nothing (by intro m r h; cases h)
  | [a, b], _ =>
    dsimp only
    rw [show "dict".toUTF8.toList = utf8 "dict".toList by decide +kernel, show "list".toUTF8.toList = utf8 "list".toList by decide +kernel,
      show "internal".toUTF8.toList = utf8 "internal".toList by decide +kernel,
      show "reindex".toUTF8.toList = utf8 "reindex".toList by decide +kernel]
    by_cases h1 : a = utf8 "dict".toList ∧ b = utf8 "list".toList
    · rw [if_pos ⟨rfl, h1⟩]
      obtain ⟨rfl, rfl⟩ := h1
      by_cases hm : m = .get
      · subst hm
        cases slash with
        | true => simpa using .served .dictList (.inl rfl)
        | false => simpa using .noSlash .dictList rfl (by simp)
      · rw [if_pos hm]
        refine .otherMethod .dictList ?_
        intro r h
        rw [search_iff] at h
        have := dict_ne
        simp_all
    rw [if_neg (by tauto)]
    by_cases h2 : a = utf8 "internal".toList ∧ b = utf8 "reindex".toList
    · rw [if_pos ⟨rfl, h2⟩]
      obtain ⟨rfl, rfl⟩ := h2
      by_cases hm : m = .post
      · subst hm
        cases slash with
        | true => simpa using .served .reindex (.inl rfl)
        | false => simpa using .noSlash .reindex rfl (by simp)
      · rw [if_pos hm]
        refine .otherMethod .reindex ?_
        intro r h
        rw [search_iff] at h
        have := dict_ne.symm
        simp_all
    rw [if_neg (by tauto)]
    refine .nothing ?_
    intro m r h
    rw [search_iff] at h
    simp_all
    tauto
  | [a, b, c], hs =>
    dsimp only
    have hb := (hs b (by simp)).1
    have hc := (hs c (by simp)).1
    rw [suggestWord_eq, completeWord_eq]
    by_cases h1 : a = completeWord
    · rw [if_pos ⟨rfl, h1, hb, hc⟩]
      subst h1
      by_cases hm : m = .get
      · subst hm
        cases slash with
        | true => simpa using .served (.autocomplete b c) (.inl rfl)
        | false => simpa using .noSlash (.autocomplete b c) rfl (by simp)
      · rw [if_pos hm]
        refine .otherMethod (.autocomplete b c) ?_
        intro r h
        rw [search_iff] at h
        simp_all
    rw [if_neg (by tauto)]
    by_cases h2 : a = suggestWord
    · rw [if_pos ⟨rfl, h2, hb, hc⟩]
      subst h2
      by_cases hm : m = .get
      · subst hm
        cases slash with
        | true => simpa using .served (.suggest b c) (.inl rfl)
        | false => simpa using .noSlash (.suggest b c) rfl (by simp)
      · rw [if_pos hm]
        refine .otherMethod (.suggest b c) ?_
        intro r h
        rw [search_iff] at h
        simp_all
    rw [if_neg (by tauto)]
    refine .nothing ?_
    intro m r h
    rw [search_iff] at h
    simp_all
  | a :: b :: c :: d :: t, _ => exact .nothing (by intro m r h; cases h)

/-- **C88** What becomes of a request to the service, by its method and its decoded path: a path without empty, "." and ".." parts is
served, redirected to the path with a final '/', refused for its method or not found, exactly as the table of the addresses says; … -/
theorem C88_routes {segs : List Bytes} (h : ∀ s ∈ segs, PathSegment s) (m : Method) (slash : Bool) (r : Route) :
    route m (pathOf segs slash) = r ↔ Routed SearchServes .redirect .notAllowed .notFound m segs slash r :=
  ⟨fun e => e ▸ search_routed h m slash, fun hr => routed_unique search_unique (search_routed h m slash) hr⟩

/-- **C88** … every other path is redirected. -/
theorem C88_routes_unclean {p : Bytes} (h : ¬ ∃ segs slash, (∀ s ∈ segs, PathSegment s) ∧ p = pathOf segs slash) (m : Method) :
    route m p = .redirect := by
  unfold route
  rw [if_pos fun hc => h (clean_pathOf hc)]

theorem spell_iff {m : Method} {segs : List Bytes} {r : SpellRoute} : SpellServes m segs r ↔
    (m = .get ∧ segs = [] ∧ r = .home) ∨ ∃ q, m = .get ∧ segs = [predictWord, q] ∧ r = .predict q := by
  constructor
  · intro h
    cases h with
    | home => exact .inl ⟨rfl, rfl, rfl⟩
    | predict q => exact .inr ⟨q, rfl, rfl, rfl⟩
  · rintro (⟨rfl, rfl, rfl⟩ | ⟨q, rfl, rfl, rfl⟩)
    exacts [.home, .predict q]

theorem spell_unique {m : Method} {segs : List Bytes} (r r' : SpellRoute) (h : SpellServes m segs r) (h' : SpellServes m segs r') : r = r' := by
  rw [spell_iff] at h h'
  rcases h with ⟨rfl, rfl, rfl⟩ | ⟨q, rfl, rfl, rfl⟩ <;> rcases h' with ⟨h1, h2, h3⟩ | ⟨q', h1, h2, h3⟩ <;> simp_all

theorem spell_routed {segs : List Bytes} (h : ∀ s ∈ segs, PathSegment s) (m : Method) (slash : Bool) :
    Routed SpellServes .redirect .notAllowed .notFound m segs slash (routeSpell m (pathOf segs slash)) := by
  unfold routeSpell
  rw [if_neg (by rw [pathOf_clean h]; simp)]
  unfold matchSpell
  dsimp only
  rw [pathOf_parts h slash]
  simp only [pathOf_last h slash]
  match segs, h with
  | [], _ =>
    cases m with
    | get => exact .served .home (.inr rfl)
    | post => exact .otherMethod .home (by intro r h; cases h)
    | other => exact .otherMethod .home (by intro r h; cases h)
  | [a], _ => exact .nothing (by intro m r h; cases h)
  | [a, b], hs =>
    dsimp only
    have hb := (hs b (by simp)).1
    rw [predictWord_eq]
    by_cases h1 : a = predictWord
    · rw [if_pos ⟨rfl, h1, hb⟩]
      subst h1
      by_cases hm : m = .get
      · subst hm
        cases slash with
        | true => simpa using .served (.predict b) (.inl rfl)
        | false => simpa using .noSlash (.predict b) rfl (by simp)
      · rw [if_pos hm]
        refine .otherMethod (.predict b) ?_
        intro r h
        rw [spell_iff] at h
        simp_all
    rw [if_neg (by tauto)]
    refine .nothing ?_
    intro m r h
    rw [spell_iff] at h
    simp_all
  | a :: b :: c :: t, _ => exact .nothing (by intro m r h; cases h)

/-- **C90** The same for the spell checker server. -/
theorem C90_routes {segs : List Bytes} (h : ∀ s ∈ segs, PathSegment s) (m : Method) (slash : Bool) (r : SpellRoute) :
    routeSpell m (pathOf segs slash) = r ↔ Routed SpellServes .redirect .notAllowed .notFound m segs slash r :=
  ⟨fun e => e ▸ spell_routed h m slash, fun hr => routed_unique spell_unique (spell_routed h m slash) hr⟩

/-- **C90** … every other path is redirected. -/
theorem C90_routes_unclean {p : Bytes} (h : ¬ ∃ segs slash, (∀ s ∈ segs, PathSegment s) ∧ p = pathOf segs slash) (m : Method) :
    routeSpell m p = .redirect := by
  unfold routeSpell
  rw [if_pos fun hc => h (clean_pathOf hc)]

/-- Examples: served; redirected; another method; not found; not clean. -/
example : route .post (pathOf [utf8 "internal".toList, utf8 "reindex".toList] true) = .reindex ∧
    route .get (pathOf [utf8 "dict".toList, utf8 "list".toList] false) = .redirect ∧
    route .get (pathOf [utf8 "internal".toList, utf8 "reindex".toList] true) = .notAllowed ∧
    route .get (pathOf [utf8 "about".toList] true) = .notFound ∧
    routeSpell .get (utf8 "/predict//go/".toList) = .redirect ∧ routeSpell .get (pathOf [] true) = .home := by decide +kernel

end Verif.Props
