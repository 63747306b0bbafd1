import Verif.Spec.Eval
import Verif.Proofs.Text
import Verif.Proofs.Scanner
import Mathlib.Data.List.Induction
/- Trimming white space, and the loop of the eval commands. -/
namespace Verif.Eval
open Verif Spec

theorem isSpace_char (c : Char) : isSpace c.toNat = whiteSpace.contains c := by
  have h : ∀ (c : Char) (n : Nat) (hn : n.isValidChar), (c.toNat == n) = (c == Char.ofNat n) := by
    intro c n hn
    rw [Bool.eq_iff_iff, beq_iff_eq, beq_iff_eq]
    constructor
    · rintro rfl; exact (Char.ofNat_toNat c).symm
    · rintro rfl; rw [Char.ofNat, dif_pos hn]; rfl
  have hr : (decide (0x2000 ≤ c.toNat) && decide (c.toNat ≤ 0x200A)) =
      (c.toNat == 0x2000 || c.toNat == 0x2001 || c.toNat == 0x2002 || c.toNat == 0x2003 || c.toNat == 0x2004 || c.toNat == 0x2005 ||
        c.toNat == 0x2006 || c.toNat == 0x2007 || c.toNat == 0x2008 || c.toNat == 0x2009 || c.toNat == 0x200A) := by
    rw [Bool.eq_iff_iff]
    simp only [Bool.and_eq_true, decide_eq_true_eq, Bool.or_eq_true, beq_iff_eq]
    omega
  unfold isSpace
  rw [hr]
  simp only [h c _ (by decide : Nat.isValidChar 9), h c _ (by decide : Nat.isValidChar 10), h c _ (by decide : Nat.isValidChar 11),
    h c _ (by decide : Nat.isValidChar 12), h c _ (by decide : Nat.isValidChar 13), h c _ (by decide : Nat.isValidChar 32),
    h c _ (by decide : Nat.isValidChar 0x85), h c _ (by decide : Nat.isValidChar 0xA0), h c _ (by decide : Nat.isValidChar 0x1680),
    h c _ (by decide : Nat.isValidChar 0x2000), h c _ (by decide : Nat.isValidChar 0x2001), h c _ (by decide : Nat.isValidChar 0x2002),
    h c _ (by decide : Nat.isValidChar 0x2003), h c _ (by decide : Nat.isValidChar 0x2004), h c _ (by decide : Nat.isValidChar 0x2005),
    h c _ (by decide : Nat.isValidChar 0x2006), h c _ (by decide : Nat.isValidChar 0x2007), h c _ (by decide : Nat.isValidChar 0x2008),
    h c _ (by decide : Nat.isValidChar 0x2009), h c _ (by decide : Nat.isValidChar 0x200A), h c _ (by decide : Nat.isValidChar 0x2028),
    h c _ (by decide : Nat.isValidChar 0x2029), h c _ (by decide : Nat.isValidChar 0x202F), h c _ (by decide : Nat.isValidChar 0x205F),
    h c _ (by decide : Nat.isValidChar 0x3000)]
  rw [Bool.eq_iff_iff]
  simp only [whiteSpace, List.contains_eq_mem, List.mem_cons, List.not_mem_nil, or_false, decide_eq_true_eq, Bool.or_eq_true, beq_iff_eq,
    or_assoc]

theorem trimLeft_utf8 (cs : List Char) (n : Nat) (h : (utf8 cs).length ≤ n) :
    trimLeft n (utf8 cs) = utf8 (cs.dropWhile (whiteSpace.contains ·)) := by
  induction cs generalizing n with
  | nil => cases n <;> rfl
  | cons c cs ih =>
    have e : utf8 (c :: cs) = String.utf8EncodeChar c ++ utf8 cs := by simp [utf8]
    have hp := List.length_pos_of_ne_nil (utf8EncodeChar_ne_nil c)
    rw [e, List.length_append] at h
    cases n with
    | zero => omega
    | succ n =>
      rw [List.dropWhile_cons, e, trimLeft, if_neg (by simp), decodeRune_encode]
      simp only [isSpace_char]
      rw [List.drop_left]
      split
      · exact ih n (by omega)
      · exact e.symm

/-- The bytes of a character: a first byte that is a `RuneStart`, and at most three continuation bytes. -/
theorem encode_shape (c : Char) : ∃ b t, String.utf8EncodeChar c = b :: t ∧ runeStart b = true ∧ (∀ x ∈ t, runeStart x = false ∧ 0x80 ≤ x.toNat) ∧
    t.length ≤ 3 ∧ (t = [] → b.toNat < 0x80 ∧ b.toNat = c.toNat) := by
  rw [← encodeRune_char]
  have h := char_range c
  generalize c.toNat = v at h
  have tn : ∀ x, x < 256 → (UInt8.ofNat x).toNat = x := fun x hx =>
    UInt8.toNat_ofNat_of_lt' (by simpa [UInt8.size] using hx)
  have hc : ∀ x, x < 64 → runeStart (UInt8.ofNat (0x80 + x)) = false ∧ 0x80 ≤ (UInt8.ofNat (0x80 + x)).toNat := by
    intro x hx
    unfold runeStart
    rw [tn _ (by omega), show (0x80 + x) / 64 = 2 by omega]
    exact ⟨rfl, by omega⟩
  have hst : ∀ x, x < 256 → x / 64 ≠ 2 → runeStart (UInt8.ofNat x) = true := by
    intro x hx h2
    unfold runeStart
    rw [tn _ hx]
    simpa using h2
  unfold encodeRune
  by_cases h1 : v < 0x80
  · rw [if_pos h1]
    exact ⟨_, [], rfl, hst _ (by omega) (by omega), by simp, by simp, fun _ => by rw [tn _ (by omega)]; exact ⟨h1, rfl⟩⟩
  rw [if_neg h1]
  by_cases h2 : v < 0x800
  · rw [if_pos h2]
    refine ⟨_, _, rfl, hst _ (by omega) (by omega), ?_, by simp, by simp⟩
    simp only [List.mem_cons, List.not_mem_nil, or_false, forall_eq]
    exact hc _ (by omega)
  rw [if_neg h2, if_neg (by omega)]
  by_cases h3 : v < 0x10000
  · rw [if_pos h3]
    refine ⟨_, _, rfl, hst _ (by omega) (by omega), ?_, by simp, by simp⟩
    simp only [List.mem_cons, List.not_mem_nil, or_false, forall_eq_or_imp, forall_eq]
    exact ⟨hc _ (by omega), hc _ (by omega)⟩
  rw [if_neg h3]
  refine ⟨_, _, rfl, hst _ (by omega) (by omega), ?_, by simp, by simp⟩
  simp only [List.mem_cons, List.not_mem_nil, or_false, forall_eq_or_imp, forall_eq]
  exact ⟨hc _ (by omega), hc _ (by omega), hc _ (by omega)⟩

theorem decodeLast_encode (s : Bytes) (c : Char) :
    decodeLastRune (s ++ String.utf8EncodeChar c) = (c.toNat, (String.utf8EncodeChar c).length) := by
  obtain ⟨b, t, e, h1, h2, h3, h4⟩ := encode_shape c
  have hd := decodeRune_encode c []
  rw [List.append_nil] at hd
  rw [e] at hd ⊢
  have key : t ≠ [] → lastStart (s ++ b :: t) = s.length := by
    intro hne
    have hp := List.length_pos_of_ne_nil hne
    have hlen : (s ++ b :: t).length = s.length + t.length + 1 := by simp; omega
    have hget : ∀ k, 2 ≤ k → k ≤ t.length + 1 →
        runeStart ((s ++ b :: t).getD ((s ++ b :: t).length - k) 0) = decide (k = t.length + 1) := by
      intro k hk hk2
      rw [hlen, List.getD_eq_getElem?_getD, List.getElem?_append_right (by omega)]
      by_cases he : k = t.length + 1
      · rw [show s.length + t.length + 1 - k - s.length = 0 by omega]
        simp [he, h1]
      · obtain ⟨m, hm⟩ : ∃ m, s.length + t.length + 1 - k - s.length = m + 1 := ⟨t.length - k, by omega⟩
        rw [hm, List.getElem?_cons_succ]
        have hmt : m < t.length := by omega
        rw [List.getElem?_eq_getElem hmt]
        simp only [Option.getD_some]
        rw [(h2 _ (List.getElem_mem hmt)).1]
        simp [he]
    unfold lastStart
    have h2' := hget 2 (by omega)
    have h3' := hget 3 (by omega)
    have h4' := hget 4 (by omega)
    have cases3 : t.length = 1 ∨ t.length = 2 ∨ t.length = 3 := by omega
    rcases cases3 with ht | ht | ht
    · have : [2, 3, 4].find? (fun k => decide (k ≤ (s ++ b :: t).length) && runeStart ((s ++ b :: t).getD ((s ++ b :: t).length - k) 0)) = some 2 := by
        rw [List.find?_cons, h2' (by omega)]
        simp [ht]
      rw [this]; simp only; omega
    · have : [2, 3, 4].find? (fun k => decide (k ≤ (s ++ b :: t).length) && runeStart ((s ++ b :: t).getD ((s ++ b :: t).length - k) 0)) = some 3 := by
        rw [List.find?_cons, h2' (by omega), List.find?_cons, h3' (by omega)]
        simp [ht]
      rw [this]; simp only; omega
    · have : [2, 3, 4].find? (fun k => decide (k ≤ (s ++ b :: t).length) && runeStart ((s ++ b :: t).getD ((s ++ b :: t).length - k) 0)) = some 4 := by
        rw [List.find?_cons, h2' (by omega), List.find?_cons, h3' (by omega), List.find?_cons, h4' (by omega)]
        simp [ht]
      rw [this]; simp only; omega
  unfold decodeLastRune
  rcases List.eq_nil_or_concat t with rfl | ⟨u, x, rfl⟩
  · rw [show (s ++ [b]).getLast? = some b by simp]
    simp only
    rw [if_pos (h4 rfl).1, (h4 rfl).2]
    simp
  · rw [List.concat_eq_append] at *
    rw [show (s ++ b :: (u ++ [x])).getLast? = some x by
      rw [← List.cons_append, ← List.append_assoc, List.getLast?_concat]]
    simp only
    rw [if_neg (by have := (h2 x (by simp)).2; omega), key (by simp), List.drop_left, hd]
    rw [if_pos (by simp)]

theorem trimRight_utf8 (cs : List Char) (n : Nat) (h : (utf8 cs).length ≤ n) :
    trimRight n (utf8 cs) = utf8 (cs.reverse.dropWhile (whiteSpace.contains ·)).reverse := by
  induction cs using List.reverseRecOn generalizing n with
  | nil => cases n <;> simp [utf8, trimRight]
  | append_singleton cs c ih =>
    have e : utf8 (cs ++ [c]) = utf8 cs ++ String.utf8EncodeChar c := by simp [utf8]
    have hp := List.length_pos_of_ne_nil (utf8EncodeChar_ne_nil c)
    rw [e, List.length_append] at h
    cases n with
    | zero => omega
    | succ n =>
      rw [List.reverse_append, List.reverse_singleton, List.singleton_append, List.dropWhile_cons, e, trimRight,
        if_neg (by simp), decodeLast_encode]
      simp only [isSpace_char]
      split
      · rw [List.length_append, Nat.add_sub_cancel, List.take_left]
        exact ih n (by omega)
      · rw [← e]; simp

theorem strip_left_le (cs : List Char) : (utf8 (cs.dropWhile (whiteSpace.contains ·))).length ≤ (utf8 cs).length := by
  have h := List.takeWhile_append_dropWhile (p := (whiteSpace.contains ·)) (l := cs)
  have := congrArg (fun x => (utf8 x).length) h
  simp only [utf8_append, List.length_append] at this
  omega

theorem trimSpace_utf8 (cs : List Char) : trimSpace (utf8 cs) = utf8 (strip cs) := by
  unfold trimSpace strip
  rw [trimLeft_utf8 _ _ (le_refl _), trimRight_utf8 _ _ (strip_left_le cs)]

/-- The loop stops with the error of the first line that fails, or when the lines are used up. -/
theorem loop_spec {α : Type} {ask : Bytes → Option (Except Err α) → Prop} {scanErr : Option Err} {lines : List Bytes}
    {out : List (Shown α)} {e : Option Err} (h : Loop ask scanErr lines out e) :
    ∃ (k : Nat) (rs : List (Option α)), List.Forall₂ (fun l r => ask l (r.map .ok)) (lines.take k) rs ∧ out = rs.flatMap printed ∧
      ((k = lines.length ∧ e = scanErr) ∨ ∃ l err, lines[k]? = some l ∧ ask l (some (.error err)) ∧ e = some err) := by
  induction h with
  | done => exact ⟨0, [], .nil, rfl, .inl ⟨rfl, rfl⟩⟩
  | skip h _ ih =>
    obtain ⟨k, rs, h1, h2, h3⟩ := ih
    refine ⟨k + 1, none :: rs, .cons h h1, by rw [h2]; rfl, ?_⟩
    rcases h3 with ⟨rfl, h4⟩ | h3
    · exact .inl ⟨rfl, h4⟩
    · exact .inr h3
  | fail h => exact ⟨0, [], .nil, rfl, .inr ⟨_, _, rfl, h, rfl⟩⟩
  | answered h _ ih =>
    obtain ⟨k, rs, h1, h2, h3⟩ := ih
    refine ⟨k + 1, some _ :: rs, .cons h h1, by rw [h2]; rfl, ?_⟩
    rcases h3 with ⟨rfl, h4⟩ | h3
    · exact .inl ⟨rfl, h4⟩
    · exact .inr h3

/-- If every outcome of every line is good, the session is complete. -/
theorem loop_complete {L Q α : Type} {bytes : L → Bytes} {asked : L → Option Q} {Good : Q → α → Prop}
    {ask : Bytes → Option (Except Err α) → Prop} {scanErr : Option Err} {ls : List L}
    (hask : ∀ l ∈ ls, ∀ r, ask (bytes l) r → ∃ x, r = x.map .ok ∧ Reply asked Good l x)
    {out : List (Shown α)} {e : Option Err} (h : Loop ask scanErr (ls.map bytes) out e) :
    e = scanErr ∧ Complete asked Good ls (.prompt :: out) := by
  obtain ⟨k, rs, h1, h2, h3⟩ := loop_spec h
  have hk : k = (ls.map bytes).length ∧ e = scanErr := by
    rcases h3 with h | ⟨l, err, h4, h5, _⟩
    · exact h
    · rw [List.getElem?_map, Option.map_eq_some_iff] at h4
      obtain ⟨l', h6, rfl⟩ := h4
      obtain ⟨x, h7, _⟩ := hask l' (List.mem_of_getElem? h6) _ h5
      cases x <;> cases h7
  refine ⟨hk.2, rs, ?_, by rw [h2]⟩
  rw [hk.1, List.take_length, List.forall₂_map_left_iff] at h1
  rw [List.forall₂_iff_get] at h1 ⊢
  refine ⟨h1.1, fun i h3 h4 => ?_⟩
  obtain ⟨x, h5, h6⟩ := hask _ (List.get_mem ls ⟨i, h3⟩) _ (h1.2 i h3 h4)
  have : rs.get ⟨i, h4⟩ = x := Option.map_injective (fun a b h => Except.ok.inj h) h5
  rw [this]; exact h6

/-- If every line has some outcome, the loop ends. -/
theorem loop_exists {α : Type} {ask : Bytes → Option (Except Err α) → Prop} {scanErr : Option Err} {lines : List Bytes}
    (hask : ∀ l ∈ lines, ∃ r, ask l r) : ∃ out e, Loop ask scanErr lines out e := by
  induction lines with
  | nil => exact ⟨_, _, .done⟩
  | cons l ls ih =>
    obtain ⟨out, e, h⟩ := ih fun l hl => hask l (by simp [hl])
    obtain ⟨r, hr⟩ := hask l (by simp)
    match r, hr with
    | none, hr => exact ⟨_, _, .skip hr h⟩
    | some (.error _), hr => exact ⟨_, _, .fail hr⟩
    | some (.ok _), hr => exact ⟨_, _, .answered hr h⟩

end Verif.Eval
