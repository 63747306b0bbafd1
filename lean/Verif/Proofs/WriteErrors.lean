import Verif.Spec.WriteErrors
import Verif.Proofs.CountTrie
/-!
What programs that write through a `bufio.Writer` leave behind on a device that can fail.
-/
namespace Verif.Faulty
open Verif

/-- The writer with handle `h`. -/
def outAt (s : Disk) (h : Nat) : Out := (s.outs[h]?).getD ⟨"", [], none⟩

/-- What has been written to the writer `h`: what is in the file, and the buffer. -/
def content (s : Disk) (h : Nat) : List UInt8 := (s.files (outAt s h).name).getD [] ++ (outAt s h).buf

theorem Failed.split {dev : Device} {a b c : Nat} (h1 : a ≤ b) (h2 : b ≤ c) : Failed dev a c ↔ Failed dev a b ∨ Failed dev b c := by
  constructor
  · rintro ⟨i, h3, h4, h5⟩
    by_cases h : i < b
    · exact .inl ⟨i, h3, h, h5⟩
    · exact .inr ⟨i, by omega, h4, h5⟩
  · rintro (⟨i, h3, h4, h5⟩ | ⟨i, h3, h4, h5⟩)
    · exact ⟨i, h3, by omega, h5⟩
    · exact ⟨i, by omega, h4, h5⟩

theorem Failed.none {dev : Device} {a : Nat} : ¬ Failed dev a a := by rintro ⟨i, h1, h2, _⟩; omega

theorem Failed.one {dev : Device} {a : Nat} : Failed dev a (a + 1) ↔ dev a ≠ Option.none := by
  constructor
  · rintro ⟨i, h1, h2, h3⟩; rw [show a = i by omega]; exact h3
  · intro h; exact ⟨a, Nat.le_refl _, by omega, h⟩

/-- From `s` to `s'` the bytes `B` were written to the writer `h` (if it has no error), nothing else happened, and a failing call is
remembered by the writer. -/
structure Ext (dev : Device) (s s' : Disk) (h : Nat) (B : List UInt8) : Prop where
  len : s'.outs.length = s.outs.length
  name : (outAt s' h).name = (outAt s h).name
  other : ∀ g, g ≠ h → s'.outs[g]? = s.outs[g]?
  files : ∀ n, n ≠ (outAt s h).name → s'.files n = s.files n
  exist : s.files (outAt s h).name ≠ none → s'.files (outAt s h).name ≠ none
  calls : s.calls ≤ s'.calls
  good : (outAt s' h).err = none → (outAt s h).err = none ∧ content s' h = content s h ++ B
  faults : Failed dev s.calls s'.calls → (outAt s' h).err ≠ none
  cause : (outAt s' h).err ≠ none → (outAt s h).err ≠ none ∨ Failed dev s.calls s'.calls

variable {dev : Device}

theorem Ext.refl (s : Disk) (h : Nat) : Ext dev s s h [] :=
  ⟨rfl, rfl, fun _ _ => rfl, fun _ _ => rfl, id, Nat.le_refl _, fun e => ⟨e, by simp⟩, fun hf => absurd hf Failed.none, .inl⟩

theorem Ext.trans {s1 s2 s3 : Disk} {h : Nat} {B C : List UInt8} (h1 : Ext dev s1 s2 h B) (h2 : Ext dev s2 s3 h C) : Ext dev s1 s3 h (B ++ C) := by
  refine ⟨h2.len.trans h1.len, h2.name.trans h1.name, fun g hg => (h2.other g hg).trans (h1.other g hg), ?_, ?_,
    Nat.le_trans h1.calls h2.calls, ?_, ?_, ?_⟩
  · intro n hn
    rw [h2.files n (by rw [h1.name]; exact hn), h1.files n hn]
  · intro he
    have := h2.exist (by rw [h1.name]; exact h1.exist he)
    rwa [h1.name] at this
  · intro he
    obtain ⟨e2, c2⟩ := h2.good he
    obtain ⟨e1, c1⟩ := h1.good e2
    exact ⟨e1, by rw [c2, c1, List.append_assoc]⟩
  · intro hf
    rcases (Failed.split h1.calls h2.calls).1 hf with hf | hf
    · exact fun he => h1.faults hf (h2.good he).1
    · exact h2.faults hf
  · intro he
    rcases h2.cause he with h | h
    · rcases h1.cause h with h | h
      · exact .inl h
      · exact .inr ((Failed.split h1.calls h2.calls).2 (.inl h))
    · exact .inr ((Failed.split h1.calls h2.calls).2 (.inr h))

/-- After an error it does not matter what should have been written. -/
theorem Ext.fail {s s' : Disk} {h : Nat} {B : List UInt8} (C : List UInt8) (h1 : Ext dev s s' h B) (he : (outAt s' h).err ≠ none) :
    Ext dev s s' h C :=
  { h1 with good := fun h => absurd h he }

theorem outAt_set_self {s : Disk} {h : Nat} (hh : h < s.outs.length) (o : Out) {f : Files} {c : Nat} :
    outAt ⟨f, c, s.outs.set h o⟩ h = o := by
  simp [outAt, List.getElem?_set_self hh]

/-- A change of the buffer only. -/
theorem Ext.buffer {s : Disk} {h : Nat} (hh : h < s.outs.length) (p : List UInt8) :
    Ext dev s { s with outs := s.outs.set h ⟨(outAt s h).name, (outAt s h).buf ++ p, (outAt s h).err⟩ } h p := by
  have ho : outAt { s with outs := s.outs.set h ⟨(outAt s h).name, (outAt s h).buf ++ p, (outAt s h).err⟩ } h =
      ⟨(outAt s h).name, (outAt s h).buf ++ p, (outAt s h).err⟩ := outAt_set_self hh _
  refine ⟨by simp, by rw [ho], fun g hg => by simp [List.getElem?_set_ne (Ne.symm hg)], fun _ _ => rfl, id, Nat.le_refl _, ?_, ?_, ?_⟩
  · intro he
    rw [ho] at he
    refine ⟨he, ?_⟩
    unfold content
    rw [ho]
    simp
  · exact fun hf => absurd hf Failed.none
  · intro he
    rw [ho] at he
    exact .inl he

theorem update_self (fs : Files) (n : String) (c : List UInt8) : (fs.update n c) n = some c := by simp [Files.update]

theorem update_ne (fs : Files) {n m : String} (c : List UInt8) (h : m ≠ n) : (fs.update n c) m = fs m := by simp [Files.update, h]

/-- The buffer (`p` = what is written directly, or what is in the buffer) goes to the file. -/
theorem Ext.write {s : Disk} {h : Nat} (hh : h < s.outs.length) (herr : (outAt s h).err = none) {c p B : List UInt8} {b : List UInt8}
    (hok : dev s.calls = none → c = p ∧ p = (outAt s h).buf ++ B ∧ b = []) :
    Ext dev s ⟨s.files.update (outAt s h).name ((s.files (outAt s h).name).getD [] ++ c), s.calls + 1,
      s.outs.set h ⟨(outAt s h).name, b, (dev s.calls).map Prod.snd⟩⟩ h B := by
  have ho : outAt ⟨s.files.update (outAt s h).name ((s.files (outAt s h).name).getD [] ++ c), s.calls + 1,
      s.outs.set h ⟨(outAt s h).name, b, (dev s.calls).map Prod.snd⟩⟩ h = ⟨(outAt s h).name, b, (dev s.calls).map Prod.snd⟩ :=
    outAt_set_self hh _
  refine ⟨by simp, by rw [ho], fun g hg => by simp [List.getElem?_set_ne (Ne.symm hg)], ?_, ?_, by simp, ?_, ?_, ?_⟩
  · intro n hn
    exact update_ne _ _ hn
  · intro _
    simp only [update_self]
    simp
  · intro he
    rw [ho] at he
    refine ⟨herr, ?_⟩
    have hd : dev s.calls = none := by
      cases hd : dev s.calls with
      | none => rfl
      | some x => rw [hd] at he; cases he
    obtain ⟨rfl, h2, rfl⟩ := hok hd
    unfold content
    rw [ho]
    simp only [update_self]
    simp [h2]
  · intro hf
    rw [ho]
    have := Failed.one.1 hf
    cases hd : dev s.calls with
    | none => exact absurd hd this
    | some x => simp
  · intro he
    rw [ho] at he
    refine .inr (Failed.one.2 ?_)
    cases hd : dev s.calls with
    | none => rw [hd] at he; exact absurd rfl he
    | some x => simp

/-- The program started in `s` returns and leaves something that satisfies `Q`. -/
def spec {α : Type} (x : W α) (s : Disk) (Q : α → Disk → Prop) : Prop := Q (x s).1 (x s).2

theorem spec_bind {α β : Type} {x : W α} {f : α → W β} {s : Disk} {Q : β → Disk → Prop} :
    spec (x >>= f) s Q ↔ spec x s (fun a s' => spec (f a) s' Q) := Iff.rfl

theorem spec_pure {α : Type} {a : α} {s : Disk} {Q : α → Disk → Prop} : spec (pure a) s Q ↔ Q a s := Iff.rfl

theorem spec_getOut {h : Nat} {s : Disk} {Q : Out → Disk → Prop} : spec (getOut h) s Q ↔ Q (outAt s h) s := Iff.rfl

theorem spec_setOut {h : Nat} {o : Out} {s : Disk} {Q : Unit → Disk → Prop} :
    spec (setOut h o) s Q ↔ Q () { s with outs := s.outs.set h o } := Iff.rfl

theorem spec_fileWrite {name : String} {p : List UInt8} {s : Disk} {Q : Res → Disk → Prop} :
    spec (fileWrite dev name p) s Q ↔
      (dev s.calls = none → Q (p.length, none) ⟨s.files.update name ((s.files name).getD [] ++ p), s.calls + 1, s.outs⟩) ∧
      (∀ n e, dev s.calls = some (n, e) → Q (min n p.length, some e) ⟨s.files.update name ((s.files name).getD [] ++ p.take n), s.calls + 1, s.outs⟩) := by
  unfold spec fileWrite
  cases hd : dev s.calls with
  | none => simp [applyFS]
  | some y =>
    obtain ⟨n, e⟩ := y
    simp [applyFS]

theorem spec_mono {α : Type} {x : W α} {s : Disk} {Q R : α → Disk → Prop} (h : spec x s Q) (hqr : ∀ a s', Q a s' → R a s') : spec x s R :=
  hqr _ _ h

/-- The program sends the bytes `B` to the writer `h`; if the writer has no error in the end, it returns `v`; if it returns something
`bad`, the writer has an error. -/
def Sends {α : Type} (dev : Device) (x : W α) (h : Nat) (B : List UInt8) (v : α) (bad : α → Prop) : Prop :=
  ∀ s : Disk, h < s.outs.length → spec x s fun r s' => Ext dev s s' h B ∧ ((outAt s' h).err = none → r = v) ∧
    (bad r → (outAt s' h).err ≠ none)

/-- The program, started in `s`, writes to `h` only. -/
def Touches {α : Type} (dev : Device) (x : W α) (h : Nat) (bad : α → Prop) (s : Disk) : Prop :=
  spec x s fun r s' => (∃ C, Ext dev s s' h C) ∧ (bad r → (outAt s' h).err ≠ none)

/-- An error is returned. -/
def bad2 {α : Type} (r : α × Option Err) : Prop := r.2 ≠ none

/-- An error is returned. -/
def bad1 (r : Option Err) : Prop := r ≠ none

theorem Sends.touches {α : Type} {x : W α} {h : Nat} {B : List UInt8} {v : α} {bad : α → Prop} (hx : Sends dev x h B v bad) {s : Disk}
    (hh : h < s.outs.length) : Touches dev x h bad s :=
  spec_mono (hx s hh) fun _ _ ⟨h1, _, h2⟩ => ⟨⟨_, h1⟩, h2⟩

theorem Touches.pure {α : Type} {a : α} {h : Nat} {bad : α → Prop} {s : Disk} (hb : bad a → (outAt s h).err ≠ none) :
    Touches dev (Pure.pure a : W α) h bad s := spec_pure.2 ⟨⟨_, Ext.refl s h⟩, hb⟩

theorem Touches.bind {α β : Type} {x : W α} {f : α → W β} {h : Nat} {bad : α → Prop} {bad' : β → Prop} {s : Disk} (hx : Touches dev x h bad s)
    (hf : ∀ a s', s'.outs.length = s.outs.length → (bad a → (outAt s' h).err ≠ none) → Touches dev (f a) h bad' s') :
    Touches dev (x >>= f) h bad' s := by
  refine spec_bind.2 (spec_mono hx ?_)
  rintro a s1 ⟨⟨C, h1⟩, h2⟩
  refine spec_mono (hf a s1 h1.len h2) ?_
  rintro b s2 ⟨⟨D, h3⟩, h4⟩
  exact ⟨⟨_, h1.trans h3⟩, h4⟩

theorem Sends.pure {α : Type} (a : α) {h : Nat} {bad : α → Prop} (hb : ¬ bad a) : Sends dev (Pure.pure a : W α) h [] a bad :=
  fun s _ => spec_pure.2 ⟨Ext.refl s h, fun _ => rfl, fun h => absurd h hb⟩

theorem Sends.bind {α β : Type} {x : W α} {f : α → W β} {h : Nat} {B C : List UInt8} {v : α} {w : β} {bad : α → Prop} {bad' : β → Prop}
    (hx : Sends dev x h B v bad) (hv : Sends dev (f v) h C w bad')
    (hf : ∀ a s, h < s.outs.length → (bad a → (outAt s h).err ≠ none) → Touches dev (f a) h bad' s) :
    Sends dev (x >>= f) h (B ++ C) w bad' := by
  intro s hh
  refine spec_bind.2 (spec_mono (hx s hh) ?_)
  rintro a s1 ⟨h1, h2, h3⟩
  have hh1 : h < s1.outs.length := by rw [h1.len]; exact hh
  by_cases he : (outAt s1 h).err = none
  · rw [h2 he]
    refine spec_mono (hv s1 hh1) ?_
    rintro b s2 ⟨h4, h5, h6⟩
    exact ⟨h1.trans h4, h5, h6⟩
  · refine spec_mono (hf a s1 hh1 h3) ?_
    rintro b s2 ⟨⟨D, h4⟩, h5⟩
    have hne : (outAt s2 h).err ≠ none := fun h => he (h4.good h).1
    exact ⟨(h1.trans h4).fail _ hne, fun h => absurd h hne, fun _ => hne⟩

theorem Sends.cast {α : Type} {x : W α} {h : Nat} {B C : List UInt8} {v w : α} {bad : α → Prop} (hx : Sends dev x h B v bad) (e : B = C)
    (e' : v = w) : Sends dev x h C w bad := e ▸ e' ▸ hx

theorem Sends.then2 {α β : Type} {x : W (α × Option Err)} {k : α → Err → β} {y : α → W β} {h : Nat} {B C : List UInt8} {v : α} {w : β}
    {bad' : β → Prop} (hx : Sends dev x h B (v, none) bad2) (hv : Sends dev (y v) h C w bad')
    (hf : ∀ a s, h < s.outs.length → Touches dev (y a) h bad' s) :
    Sends dev (x >>= fun r => match r.2 with | some e => Pure.pure (k r.1 e) | none => y r.1) h (B ++ C) w bad' := by
  refine hx.bind hv ?_
  rintro ⟨n, e⟩ s hh ha
  cases e with
  | some e => exact Touches.pure fun _ => ha (by simp [bad2])
  | none => exact hf n s hh

theorem Sends.then1 {β : Type} {x : W (Option Err)} {k : Err → β} {y : W β} {h : Nat} {B C : List UInt8} {w : β}
    {bad' : β → Prop} (hx : Sends dev x h B none bad1) (hv : Sends dev y h C w bad') :
    Sends dev (x >>= fun r => match r with | some e => Pure.pure (k e) | none => y) h (B ++ C) w bad' := by
  refine hx.bind hv ?_
  intro e s hh ha
  cases e with
  | some e => exact Touches.pure fun _ => ha (by simp [bad1])
  | none => exact hv.touches hh

theorem flush_spec {h : Nat} {s : Disk} (hh : h < s.outs.length) :
    spec (flush dev h) s fun r s' => Ext dev s s' h [] ∧ r = (outAt s' h).err ∧
      (r = none → (outAt s' h).buf = [] ∧ (outAt s h).err = none) := by
  simp only [flush, spec_bind, spec_getOut]
  cases he : (outAt s h).err with
  | some e => exact spec_pure.2 ⟨Ext.refl _ _, he.symm, (fun h => nomatch h)⟩
  | none =>
    by_cases hb : (outAt s h).buf = []
    · simp only [if_pos hb]
      exact spec_pure.2 ⟨Ext.refl _ _, he.symm, fun _ => ⟨hb, trivial⟩⟩
    · simp only [if_neg hb, spec_bind, spec_fileWrite]
      have hw := @Ext.write dev s h hh he
      refine ⟨fun hd => ?_, fun n e hd => ?_⟩
      · simp only [spec_setOut, spec_pure]
        rw [hd] at hw
        refine ⟨?_, ?_, ?_⟩
        · have := @hw (outAt s h).buf (outAt s h).buf [] [] (by simp)
          simpa [he] using this
        · rw [outAt_set_self (s := s) hh]
        · intro _; rw [outAt_set_self (s := s) hh]; exact ⟨rfl, trivial⟩
      · simp only [spec_setOut, spec_pure]
        rw [hd] at hw
        refine ⟨?_, ?_, ?_⟩
        · have := @hw ((outAt s h).buf.take n) (outAt s h).buf [] ((outAt s h).buf.drop (min n (outAt s h).buf.length)) (by simp)
          simpa using this
        · rw [outAt_set_self (s := s) hh]
        · intro h; cases h

theorem writeThrough_spec {h : Nat} {s : Disk} (hh : h < s.outs.length) (herr : (outAt s h).err = none) {p : List UInt8}
    (hb : (outAt s h).buf = []) {o : Out} (ho : o.name = (outAt s h).name) :
    spec (writeThrough dev h o p) s fun r s' => Ext dev s s' h p ∧ ((outAt s' h).err = none → r = (p.length, none)) ∧
      r.2 = (outAt s' h).err := by
  simp only [writeThrough, spec_bind, spec_fileWrite]
  have hw := @Ext.write dev s h hh herr
  refine ⟨fun hd => ?_, fun n e hd => ?_⟩
  · simp only [spec_setOut, spec_pure]
    rw [hd] at hw
    refine ⟨?_, fun _ => trivial, by rw [outAt_set_self (s := s) hh]⟩
    have := @hw p p p [] (by simp [hb])
    simpa [ho] using this
  · simp only [spec_setOut, spec_pure]
    rw [hd] at hw
    refine ⟨?_, ?_, ?_⟩
    · have := @hw (p.take n) p p [] (by simp)
      simpa [ho] using this
    · intro h; rw [outAt_set_self (s := s) hh] at h; cases h
    · rw [outAt_set_self (s := s) hh]

theorem write_spec {h : Nat} (p : List UInt8) {s : Disk} (hh : h < s.outs.length) :
    spec (write dev h p) s fun r s' => Ext dev s s' h p ∧ ((outAt s' h).err = none → r = (p.length, none)) ∧ r.2 = (outAt s' h).err := by
  simp only [write, spec_bind, spec_getOut]
  cases he : (outAt s h).err with
  | some e =>
    exact spec_pure.2 ⟨(Ext.refl s h).fail p (by rw [he]; simp), fun h => (by rw [he] at h; cases h), by rw [he]⟩
  | none =>
    by_cases h1 : p.length ≤ bufSize - (outAt s h).buf.length
    · simp only [if_pos h1, spec_bind, spec_setOut, spec_pure]
      have := Ext.buffer (dev := dev) hh p
      rw [he] at this
      exact ⟨this, fun _ => trivial, by rw [outAt_set_self (s := s) hh]⟩
    · simp only [if_neg h1]
      by_cases h2 : (outAt s h).buf = []
      · simp only [if_pos h2]
        exact writeThrough_spec hh he h2 rfl
      · simp only [if_neg h2, spec_bind, spec_setOut]
        generalize bufSize - (outAt s h).buf.length = k at h1
        have e1 := Ext.buffer (dev := dev) hh (p.take k)
        rw [he] at e1
        generalize hs1 : ({ s with outs := s.outs.set h { name := (outAt s h).name, buf := (outAt s h).buf ++ p.take k, err := none } } : Disk) = s1 at e1
        have hh1 : h < s1.outs.length := by rw [e1.len]; exact hh
        refine spec_mono (flush_spec hh1) ?_
        rintro r s2 ⟨e2, hr, hn⟩
        have hh2 : h < s2.outs.length := by rw [e2.len]; exact hh1
        have e12 := e1.trans e2
        rw [List.append_nil] at e12
        cases r with
        | some e =>
          have hne : (outAt s2 h).err ≠ none := by rw [← hr]; simp
          exact spec_pure.2 ⟨e12.fail p hne, fun h => absurd h hne, hr⟩
        | none =>
          obtain ⟨hbuf, -⟩ := hn rfl
          have hcat : p.take k ++ p.drop k = p := List.take_append_drop k p
          by_cases h3 : (p.drop k).length ≤ bufSize
          · simp only [if_pos h3, spec_bind, spec_setOut, spec_pure]
            have e3 := Ext.buffer (dev := dev) hh2 (p.drop k)
            rw [hbuf, ← hr, e12.name] at e3
            have := e12.trans e3
            rw [hcat] at this
            exact ⟨this, fun _ => trivial, by rw [outAt_set_self (s := s2) hh2]⟩
          · simp only [if_neg h3, spec_bind]
            refine spec_mono (writeThrough_spec hh2 hr.symm hbuf e12.name.symm) ?_
            rintro ⟨n, e⟩ s3 ⟨e3, h4, h5⟩
            have := e12.trans e3
            rw [hcat] at this
            refine spec_pure.2 ⟨this, fun h => ?_, h5⟩
            have h6 := h4 h
            injection h6 with h6 h7
            have hl : k + (p.drop k).length = p.length := by
              rw [List.length_drop]
              have : ¬ (p.drop k).length ≤ bufSize := h3
              rw [List.length_drop] at this
              omega
            rw [h6, h7, hl]

theorem write_sends {h : Nat} (p : List UInt8) : Sends dev (write dev h p) h p (p.length, none) bad2 := by
  intro s hh
  refine spec_mono (write_spec p hh) ?_
  rintro r s' ⟨h1, h2, h3⟩
  exact ⟨h1, h2, fun h => by rw [← h3]; exact h⟩

theorem writeAll_sends {h : Nat} : ∀ ps : List (List UInt8), Sends dev (writeAll dev h ps) h ps.flatten (ps.flatten.length, none) bad2
  | [] => Sends.pure _ (by simp [bad2])
  | p :: ps => by
    have ih := writeAll_sends (h := h) ps
    have hk : ∀ n : Nat, Sends dev (writeAll dev h ps >>= fun r => Pure.pure (n + r.1, r.2)) h (ps.flatten ++ [])
        (n + ps.flatten.length, none) bad2 := fun n =>
      ih.bind (Sends.pure _ (by simp [bad2])) fun a s _ ha => Touches.pure ha
    unfold writeAll
    have h0 := (write_sends (dev := dev) (h := h) p).then2 (k := fun n e => ((n, some e) : Res))
      (y := fun n => writeAll dev h ps >>= fun q => Pure.pure (n + q.1, q.2)) (hk _) fun n s hh => (hk n).touches hh
    refine Sends.cast h0 ?_ ?_ <;> simp

theorem wVarInt_sends {h : Nat} : ∀ (l : List Nat) (prev : Nat),
    Sends dev (wVarInt dev h l prev) h (varIntEncode l prev) (varIntEncodeTotal l prev, none) bad2
  | [], _ => Sends.pure _ (by simp [bad2])
  | v :: vs, prev => by
    have ih := wVarInt_sends (h := h) vs v
    have hk : ∀ n : Nat, Sends dev (wVarInt dev h vs v >>= fun r => Pure.pure (n + r.1, r.2)) h (varIntEncode vs v ++ [])
        (n + varIntEncodeTotal vs v, none) bad2 := fun n =>
      ih.bind (Sends.pure _ (by simp [bad2])) fun a s _ ha => Touches.pure ha
    unfold wVarInt
    have h0 := (write_sends (dev := dev) (h := h) (encVUInt32 (u32sub v prev))).bind (f := fun r => match r.2 with
      | some e => if e = .eof then Pure.pure (r.1, none) else Pure.pure (r.1, some e)
      | none => wVarInt dev h vs v >>= fun q => Pure.pure (r.1 + q.1, q.2)) (hk _) (by
        rintro ⟨n, e⟩ s hh ha
        cases e with
        | some e =>
          dsimp only
          split
          · exact Touches.pure fun h => absurd rfl h
          · exact Touches.pure fun _ => ha (by simp [bad2])
        | none => exact (hk n).touches hh)
    refine Sends.cast h0 ?_ ?_ <;> simp [varIntEncode, varIntEncodeTotal]

theorem wSkipLoop_sends {gap h : Nat} : ∀ (fuel : Nat) (l : List Nat) (prev : Nat) {B : List UInt8} {n : Nat},
    skipEncLoop gap fuel l prev = some (B, n) → Sends dev (wSkipLoop dev gap h fuel l prev) h B (n, none) bad2 := by
  intro fuel
  induction fuel with
  | zero =>
    intro l prev B n hl
    cases l with
    | nil =>
      unfold skipEncLoop at hl
      cases hl
      unfold wSkipLoop
      exact Sends.pure _ (by simp [bad2])
    | cons x xs => unfold skipEncLoop at hl; cases hl
  | succ fuel ih =>
    intro l prev B n hl
    cases l with
    | nil =>
      unfold skipEncLoop at hl
      cases hl
      unfold wSkipLoop
      exact Sends.pure _ (by simp [bad2])
    | cons x xs =>
      unfold skipEncLoop at hl
      unfold wSkipLoop
      dsimp only at hl ⊢
      generalize (x :: xs).take (min gap (x :: xs).length) = block at hl ⊢
      generalize (if min gap (x :: xs).length = (x :: xs).length then (varIntEncodeTotal block prev + 2) ||| lastBlockFlag
        else varIntEncodeTotal block prev + 2) = hdr at hl ⊢
      generalize hrec : skipEncLoop gap fuel ((x :: xs).drop gap) x = R at hl
      cases R with
      | none => cases hl
      | some R =>
        obtain ⟨C, m⟩ := R
        dsimp only at hl
        cases hl
        have ih' := ih _ _ hrec
        have h3 := ih'.then2 (k := fun _ e => ((0, some e) : Res)) (y := fun m => Pure.pure (varIntEncodeTotal block prev + 2 + m, none))
          (Sends.pure _ (by simp [bad2])) (bad' := bad2) fun a s hh => Touches.pure fun h => absurd rfl h
        have h2 := (write_sends (dev := dev) (h := h) (varIntEncode block prev)).then2 (k := fun _ e => ((0, some e) : Res)) (y := fun _ => _)
          h3 fun a s hh => h3.touches hh
        have h1 := (write_sends (dev := dev) (h := h) (encUInt16 (hdr % 2 ^ 16))).then2 (k := fun _ e => ((0, some e) : Res)) (y := fun _ => _)
          h2 fun a s hh => h2.touches hh
        exact Sends.cast h1 (by simp) rfl

theorem wEncode_sends {ρ : Roaring} {split : List UInt8 → List (List UInt8)} (hs : ∀ b, (split b).flatten = b) {h : Nat} {l : List Nat}
    {B : List UInt8} {n : Nat} (hl : codecEncode ρ l = .ok (B, n)) : Sends dev (wEncode dev ρ split h l) h B (n, none) bad2 := by
  unfold codecEncode at hl
  unfold wEncode
  dsimp only at hl
  split
  · rename_i h1
    rw [if_pos h1] at hl
    cases hl
    exact wVarInt_sends l 0
  · rename_i h1
    rw [if_neg h1] at hl
    split
    · rename_i h2
      rw [if_pos h2] at hl
      unfold skipEncode at hl
      have h3 : ¬ ((l.length : Int) < (skippingGapSize : Nat)) := by omega
      have h4 : ¬ (((skippingGapSize : Nat) : Int) < 0) := by omega
      rw [if_neg h3, if_neg h4] at hl
      simp only [Int.toNat_natCast] at hl
      generalize hr : skipEncLoop skippingGapSize l.length l 0 = R at hl
      cases R with
      | none => cases hl
      | some R =>
        obtain ⟨C, m⟩ := R
        simp only [Option.map_some] at hl
        cases hl
        exact wSkipLoop_sends _ _ _ hr
    · rename_i h2
      rw [if_neg h2] at hl
      cases hl
      refine Sends.cast (writeAll_sends (split (ρ.writeTo l))) (hs _) ?_
      rw [hs]

theorem commitEntries_offset {ρ : Roaring} : ∀ (l : List (Nat × String × List Nat)) {off off' : Nat} {B : List UInt8} {ds : List TermDesc},
    commitEntries ρ l off = .ok (B, ds) → ∃ ds', commitEntries ρ l off' = .ok (B, ds')
  | [], _, _, _, _, h => by cases h; exact ⟨[], rfl⟩
  | (i, t, pl) :: rest, off, off', B, ds, h => by
    unfold commitEntries at h ⊢
    simp only [bind, Except.bind, pure, Except.pure] at h ⊢
    cases hc : codecEncode ρ pl with
    | error e => rw [hc] at h; cases h
    | ok b =>
      obtain ⟨C, n⟩ := b
      rw [hc] at h
      dsimp only at h ⊢
      cases hr : commitEntries ρ rest (off + n) with
      | error e => rw [hr] at h; cases h
      | ok r =>
        obtain ⟨D, ds1⟩ := r
        rw [hr] at h
        obtain ⟨ds2, h2⟩ := commitEntries_offset rest (off' := off' + n) hr
        rw [h2]
        cases h
        exact ⟨_, rfl⟩

theorem wEntries_sends {ρ : Roaring} {split : List UInt8 → List (List UInt8)} (hs : ∀ b, (split b).flatten = b) {h : Nat} :
    ∀ (l : List (Nat × String × List Nat)) {off : Nat} {B : List UInt8} {ds : List TermDesc}, commitEntries ρ l off = .ok (B, ds) →
      Sends dev (wEntries dev ρ split h l off) h B (ds, none) bad2
  | [], _, _, _, hl => by cases hl; exact Sends.pure _ (by simp [bad2])
  | (i, t, pl) :: rest, off, B, ds, hl => by
    unfold commitEntries at hl
    simp only [bind, Except.bind, pure, Except.pure] at hl
    cases hc : codecEncode ρ pl with
    | error e => rw [hc] at hl; cases hl
    | ok b =>
      obtain ⟨C, n⟩ := b
      rw [hc] at hl
      dsimp only at hl
      cases hr : commitEntries ρ rest (off + n) with
      | error e => rw [hr] at hl; cases hl
      | ok r =>
        obtain ⟨D, ds1⟩ := r
        rw [hr] at hl
        cases hl
        have hk : ∀ m : Nat, ∃ ds2, Sends dev (wEntries dev ρ split h rest (off + m) >>= fun r =>
            Pure.pure (⟨t, u32 i, u32 m, u32 off, u32 pl.length⟩ :: r.1, r.2)) h (D ++ []) (ds2, none) bad2 := by
          intro m
          obtain ⟨ds2, h2⟩ := commitEntries_offset rest (off' := off + m) hr
          exact ⟨_, (wEntries_sends hs rest h2).bind (Sends.pure _ (by simp [bad2])) fun a s _ ha => Touches.pure ha⟩
        have hk0 : Sends dev (wEntries dev ρ split h rest (off + n) >>= fun r =>
            Pure.pure (⟨t, u32 i, u32 n, u32 off, u32 pl.length⟩ :: r.1, r.2)) h (D ++ [])
              (⟨t, u32 i, u32 n, u32 off, u32 pl.length⟩ :: ds1, none) bad2 :=
          (wEntries_sends hs rest hr).bind (Sends.pure _ (by simp [bad2])) fun a s _ ha => Touches.pure ha
        unfold wEntries
        have h0 := (wEncode_sends (dev := dev) hs (h := h) hc).then2 (k := fun _ e => (([], some e) : List TermDesc × Option Err))
          (y := fun m => wEntries dev ρ split h rest (off + m) >>= fun r =>
            Pure.pure (⟨t, u32 i, u32 m, u32 off, u32 pl.length⟩ :: r.1, r.2)) hk0 fun m s hh => by
              obtain ⟨_, h2⟩ := hk m
              exact h2.touches hh
        exact Sends.cast h0 (by simp) rfl

/-! ### the language model -/

theorem write_error {h : Nat} (p : List UInt8) : Sends dev (write dev h p >>= fun r => Pure.pure r.2) h p none bad1 := by
  have h0 := (write_sends (dev := dev) (h := h) p).bind (f := fun r => Pure.pure r.2) (bad' := bad1) (Sends.pure none (by simp [bad1]))
    fun a s _ ha => Touches.pure (a := a.2) ha
  exact Sends.cast h0 (by simp) rfl

theorem write_then {h : Nat} (p : List UInt8) {y : W (Option Err)} {C : List UInt8} (hy : Sends dev y h C none bad1) :
    Sends dev (write dev h p >>= fun r => match r.2 with | some e => Pure.pure (some e) | none => y) h (p ++ C) none bad1 :=
  (write_sends (dev := dev) (h := h) p).then2 (k := fun _ e => some e) (y := fun _ => y) hy fun _ _ hh => hy.touches hh

theorem wVector_sends {h : Nat} (v : PackedArray) : Sends dev (wVector dev h v) h v.store none bad1 := by
  have h0 := write_then (dev := dev) (decimal (u32 (8 * v.containers.length)) ++ 32 :: (decimal (u32 (8 * v.values.length)) ++ 32 :: (decimal v.total ++ [10])))
    (write_then (dev := dev) (h := h) (v.containers.flatMap encUInt64) (write_error (dev := dev) (v.values.flatMap encUInt64)))
  unfold wVector
  exact Sends.cast h0 (by simp [PackedArray.store]) rfl

theorem wVectors_sends {h : Nat} : ∀ vs : List PackedArray, Sends dev (wVectors dev h vs) h (vs.flatMap PackedArray.store) none bad1
  | [] => Sends.pure _ (by simp [bad1])
  | v :: vs => by
    have h0 := (wVector_sends (dev := dev) (h := h) v).then1 (k := fun e => some e) (wVectors_sends vs)
    unfold wVectors
    exact Sends.cast h0 (by simp) rfl

theorem wModel_sends {h : Nat} (vs : List PackedArray) : Sends dev (wModel dev h vs) h (modelStore vs) none bad1 := by
  have h0 := write_then (dev := dev) modelVersion (write_then (dev := dev) (h := h) [UInt8.ofNat vs.length] (wVectors_sends (dev := dev) vs))
  unfold wModel
  exact Sends.cast h0 (by simp [modelStore]) rfl

theorem wUInt32s_sends {h : Nat} : ∀ vs : List Nat, Sends dev (wUInt32s dev h vs) h (vs.flatMap encUInt32) none bad1
  | [] => Sends.pure _ (by simp [bad1])
  | v :: vs => by
    have h0 := write_then (dev := dev) (h := h) (encUInt32 v) (wUInt32s_sends vs)
    unfold wUInt32s
    exact Sends.cast h0 (by simp) rfl

theorem wMPH_sends {h : Nat} (m : MPH) : Sends dev (wMPH dev h m) h m.store none bad1 := by
  have h0 := write_then (dev := dev) (h := h) (encUInt32 m.values.length) ((wUInt32s_sends (dev := dev) m.values).then1 (k := fun e => some e)
    (write_then (dev := dev) (encUInt32 m.auxiliary.length) (wUInt32s_sends (dev := dev) (m.auxiliary.map fromI32))))
  unfold wMPH
  exact Sends.cast h0 (by simp [MPH.store, List.flatMap_map]) rfl

/-! ### files -/

theorem outAt_append_last (s : Disk) (o : Out) {f : Files} {c : Nat} : outAt ⟨f, c, s.outs ++ [o]⟩ s.outs.length = o := by simp [outAt]

theorem outAt_congr {s s' : Disk} {h : Nat} (e : s'.outs[h]? = s.outs[h]?) : outAt s' h = outAt s h := by unfold outAt; rw [e]

theorem spec_createOutput {name : String} {s : Disk} {Q : Except Err Nat → Disk → Prop} :
    spec (createOutput dev name) s Q ↔
      (dev s.calls = none → Q (.ok s.outs.length) ⟨s.files.update name [], s.calls + 1, s.outs ++ [⟨name, [], none⟩]⟩) ∧
      (∀ n e, dev s.calls = some (n, e) → Q (.error e) ⟨s.files, s.calls + 1, s.outs⟩) := by
  unfold spec createOutput
  cases hd : dev s.calls with
  | none => simp [applyFS]
  | some y =>
    obtain ⟨n, e⟩ := y
    simp

/-- The program sends the bytes `B` to the writer `h` and closes it. -/
def Closes (dev : Device) (x : W (Option Err)) (h : Nat) (B : List UInt8) : Prop :=
  ∀ s : Disk, h < s.outs.length → spec x s fun r s' => Ext dev s s' h B ∧ (r = none → (outAt s' h).err = none ∧ (outAt s' h).buf = []) ∧
    (r ≠ none → (outAt s' h).err ≠ none)

theorem close_closes {h : Nat} : Closes dev (close dev h) h [] := by
  intro s hh
  refine spec_mono (flush_spec hh) ?_
  rintro r s' ⟨h1, h2, h3⟩
  exact ⟨h1, fun hr => ⟨by rw [← h2]; exact hr, (h3 hr).1⟩, fun hr => by rw [← h2]; exact hr⟩

theorem Sends.close2 {α : Type} {x : W (α × Option Err)} {h : Nat} {B : List UInt8} {v : α} (hx : Sends dev x h B (v, none) bad2) :
    Closes dev (x >>= fun r => match r.2 with | some e => Pure.pure (some e) | none => close dev h) h B := by
  intro s hh
  refine spec_bind.2 (spec_mono (hx s hh) ?_)
  rintro ⟨a, e⟩ s1 ⟨h1, h2, h3⟩
  have hh1 : h < s1.outs.length := by rw [h1.len]; exact hh
  cases e with
  | some e =>
    have := h3 (by simp [bad2])
    exact spec_pure.2 ⟨h1, (fun h => nomatch h), fun _ => this⟩
  | none =>
    refine spec_mono (close_closes s1 hh1) ?_
    rintro r s2 ⟨h4, h5, h6⟩
    have := h1.trans h4
    rw [List.append_nil] at this
    exact ⟨this, h5, h6⟩

theorem Sends.close1 {x : W (Option Err)} {h : Nat} {B : List UInt8} (hx : Sends dev x h B none bad1) :
    Closes dev (x >>= fun r => match r with | some e => Pure.pure (some e) | none => close dev h) h B := by
  intro s hh
  refine spec_bind.2 (spec_mono (hx s hh) ?_)
  rintro e s1 ⟨h1, h2, h3⟩
  have hh1 : h < s1.outs.length := by rw [h1.len]; exact hh
  cases e with
  | some e =>
    have := h3 (by simp [bad1])
    exact spec_pure.2 ⟨h1, (fun h => nomatch h), fun _ => this⟩
  | none =>
    refine spec_mono (close_closes s1 hh1) ?_
    rintro r s2 ⟨h4, h5, h6⟩
    have := h1.trans h4
    rw [List.append_nil] at this
    exact ⟨this, h5, h6⟩

/-- From `s` to `s'` the program wrote only the file `name`, and its result `r` says whether all is well: then the file contains
`B`. -/
structure Wrote (dev : Device) (s s' : Disk) (r : Option Err) (name : String) (B : List UInt8) : Prop where
  calls : s.calls ≤ s'.calls
  outs : ∀ g, g < s.outs.length → s'.outs[g]? = s.outs[g]?
  len : s.outs.length ≤ s'.outs.length
  files : ∀ n, n ≠ name → s'.files n = s.files n
  result : r ≠ none ↔ Failed dev s.calls s'.calls
  bytes : r = none → s'.files name = some B

/-- A new file, written and closed. -/
theorem create_closes {name : String} {x : Nat → W (Option Err)} {B : List UInt8} (hx : ∀ h, Closes dev (x h) h B) (s : Disk) :
    spec (createOutput dev name >>= fun r => match r with | .error e => Pure.pure (some e) | .ok h => x h) s
      fun r s' => Wrote dev s s' r name B := by
  refine spec_bind.2 (spec_createOutput.2 ⟨fun hd => ?_, fun n e hd => ?_⟩)
  · have hc := hx s.outs.length ⟨s.files.update name [], s.calls + 1, s.outs ++ [⟨name, [], none⟩]⟩ (by simp)
    refine spec_mono hc ?_
    rintro r s' ⟨h1, h2, h3⟩
    have ho := outAt_append_last s ⟨name, [], none⟩ (f := s.files.update name []) (c := s.calls + 1)
    have hlt : ∀ g, g < s.outs.length → g ≠ s.outs.length := fun g hg => by omega
    refine ⟨Nat.le_trans (Nat.le_succ _) h1.calls, fun g hg => ?_, ?_, fun n hn => ?_, ⟨fun hr => ?_, fun hf => ?_⟩, fun hr => ?_⟩
    · rw [h1.other g (hlt g hg)]
      exact List.getElem?_append_left hg
    · rw [h1.len]; simp
    · rw [h1.files n (by rw [ho]; exact hn)]
      exact update_ne _ _ hn
    · rcases h1.cause (h3 hr) with h | h
      · rw [ho] at h; exact absurd rfl h
      · exact (Failed.split (Nat.le_succ _) h1.calls).2 (.inr h)
    · rcases (Failed.split (Nat.le_succ _) h1.calls).1 hf with h | h
      · exact absurd hd (Failed.one.1 h)
      · intro hr
        exact h1.faults h (h2 hr).1
    · obtain ⟨e1, e2⟩ := h2 hr
      have h4 := (h1.good e1).2
      have h5 := h1.exist
      unfold content at h4
      rw [e2, h1.name, ho] at h4
      rw [ho] at h5
      simp only [update_self, Option.getD_some, List.append_nil, List.nil_append] at h4 h5
      have h6 := h5 (by simp)
      cases hf : s'.files name with
      | none => exact absurd hf h6
      | some c => rw [hf] at h4; rw [← h4]; rfl
  · exact spec_pure.2 ⟨Nat.le_succ _, fun _ _ => rfl, Nat.le_refl _, fun _ _ => rfl,
      ⟨fun _ => Failed.one.2 (by rw [hd]; simp), fun _ => by simp⟩, (fun h => nomatch h)⟩

theorem wHeader_wrote {G : Gob} {split : List UInt8 → List (List UInt8)} (hs : ∀ b, (split b).flatten = b) {name : String} {hd : Header}
    (s : Disk) : spec (wHeader dev G split name hd) s fun r s' => Wrote dev s s' r name (G.encode hd) := by
  have := create_closes (dev := dev) (name := name) (x := fun h => writeAll dev h (split (G.encode hd)) >>= fun r => match r.2 with
    | some e => Pure.pure (some e) | none => close dev h) (B := (split (G.encode hd)).flatten) (fun h => (writeAll_sends _).close2) s
  rw [hs] at this
  exact this

theorem wBinary_wrote {name : String} {vs : List PackedArray} {table : MPH} (s : Disk) :
    spec (wBinary dev name vs table) s fun r s' => Wrote dev s s' r name (lmStore vs table) := by
  refine create_closes (dev := dev) (name := name) (x := fun h => wModel dev h vs >>= fun r => match r with
    | some e => Pure.pure (some e) | none => wMPH dev h table >>= fun r => match r with
      | some e => Pure.pure (some e) | none => close dev h) (B := lmStore vs table) (fun h => ?_) s
  intro s hh
  refine spec_bind.2 (spec_mono (wModel_sends vs s hh) ?_)
  rintro e s1 ⟨h1, h2, h3⟩
  have hh1 : h < s1.outs.length := by rw [h1.len]; exact hh
  cases e with
  | some e =>
    have := h3 (by simp [bad1])
    exact spec_pure.2 ⟨h1.fail _ this, (fun h => nomatch h), fun _ => this⟩
  | none =>
    refine spec_mono ((wMPH_sends table).close1 s1 hh1) ?_
    rintro r s2 ⟨h4, h5, h6⟩
    exact ⟨h1.trans h4, h5, h6⟩

/-- What `Commit` does to a disk. -/
structure Committed (dev : Device) (s s' : Disk) (r : Option Err) (cfg : WriterConfig) (docs header : List UInt8) : Prop where
  calls : s.calls ≤ s'.calls
  files : ∀ n, n ≠ cfg.docs → n ≠ cfg.header → s'.files n = s.files n
  result : r ≠ none ↔ Failed dev s.calls s'.calls
  bytes : r = none → s'.files cfg.docs = some docs ∧ s'.files cfg.header = some header

theorem wCommit_spec {ρ : Roaring} {G : Gob} {split : List UInt8 → List (List UInt8)} (hs : ∀ b, (split b).flatten = b) {cfg : WriterConfig}
    (hne : cfg.header ≠ cfg.docs) {order : Nat → TermMap → TermMap} {ix : Indices} {docs : List UInt8} {hd : Header}
    (hc : commitData ρ order ix = .ok (docs, hd)) (s : Disk) :
    spec (wCommit dev ρ G split cfg order ix) s fun r s' => Committed dev s s' r cfg docs (G.encode hd) := by
  unfold commitData at hc
  simp only [bind, Except.bind, pure, Except.pure] at hc
  generalize he : commitEntries ρ (commitOrder order ix) 0 = R at hc
  cases R with
  | error e => cases hc
  | ok R =>
    obtain ⟨D, ds⟩ := R
    cases hc
    have hent := wEntries_sends (dev := dev) hs (h := s.outs.length) _ he
    unfold wCommit
    refine spec_bind.2 (spec_createOutput.2 ⟨fun hd => ?_, fun n e hd => ?_⟩)
    · have ho := outAt_append_last s ⟨cfg.docs, [], none⟩ (f := s.files.update cfg.docs []) (c := s.calls + 1)
      have hlen : s.outs.length < (s.outs ++ [(⟨cfg.docs, [], none⟩ : Out)]).length := by simp
      have hup : (s.files.update cfg.docs []) cfg.docs = some [] := update_self _ _ _
      have hupn : ∀ n, n ≠ cfg.docs → (s.files.update cfg.docs []) n = s.files n := fun n hn => update_ne _ _ hn
      generalize hS : (⟨s.files.update cfg.docs [], s.calls + 1, s.outs ++ [⟨cfg.docs, [], none⟩]⟩ : Disk) = s0 at ho ⊢
      have hlen0 : s.outs.length < s0.outs.length := by rw [← hS]; exact hlen
      have hcalls0 : s0.calls = s.calls + 1 := by rw [← hS]
      have hup0 : s0.files cfg.docs = some [] := by rw [← hS]; exact hup
      have hupn0 : ∀ n, n ≠ cfg.docs → s0.files n = s.files n := by rw [← hS]; exact hupn
      generalize s.outs.length = h at hent ho hlen0
      have hnof : ¬ Failed dev s.calls s0.calls := by
        rw [hcalls0]; exact fun hf => Failed.one.1 hf hd
      have hle0 : s.calls ≤ s0.calls := by omega
      refine spec_bind.2 (spec_mono (hent s0 hlen0) ?_)
      rintro ⟨ds', e⟩ s1 ⟨h1, h2, h3⟩
      cases e with
      | some e =>
        have hbad := h3 (by simp [bad2])
        refine spec_pure.2 ⟨Nat.le_trans hle0 h1.calls, fun n hn _ => ?_, ⟨fun _ => ?_, fun _ => by simp⟩, (fun h => nomatch h)⟩
        · rw [h1.files n (by rw [ho]; exact hn)]; exact hupn0 n hn
        · rcases h1.cause hbad with h | h
          · rw [ho] at h; exact absurd rfl h
          · exact (Failed.split hle0 h1.calls).2 (.inr h)
      | none =>
        refine spec_bind.2 (spec_mono (wHeader_wrote hs s1) ?_)
        intro r s2 hw
        have hh1 : h < s1.outs.length := by rw [h1.len]; exact hlen0
        have hh2 : h < s2.outs.length := Nat.lt_of_lt_of_le hh1 hw.len
        have ho2 : outAt s2 h = outAt s1 h := outAt_congr (hw.outs h hh1)
        have hle1 := Nat.le_trans hle0 h1.calls
        have hle2 := Nat.le_trans hle1 hw.calls
        have hnm1 : (outAt s1 h).name = cfg.docs := by rw [h1.name, ho]
        cases r with
        | some e =>
          refine spec_pure.2 ⟨hle2, fun n hn hn' => ?_, ⟨fun _ => ?_, fun _ => by simp⟩, (fun h => nomatch h)⟩
          · rw [hw.files n hn', h1.files n (by rw [ho]; exact hn)]; exact hupn0 n hn
          · exact (Failed.split hle1 hw.calls).2 (.inr (hw.result.1 (by simp)))
        | none =>
          have hw0 : ¬ Failed dev s1.calls s2.calls := fun hf => hw.result.2 hf rfl
          refine spec_mono (close_closes s2 hh2) ?_
          rintro r s3 ⟨h4, h5, h6⟩
          refine ⟨Nat.le_trans hle2 h4.calls, fun n hn hn' => ?_, ⟨fun hr => ?_, fun hf hr => ?_⟩, fun hr => ?_⟩
          · rw [h4.files n (by rw [ho2, hnm1]; exact hn), hw.files n hn', h1.files n (by rw [ho]; exact hn)]; exact hupn0 n hn
          · rcases h4.cause (h6 hr) with h | h
            · rw [ho2] at h
              rcases h1.cause h with h | h
              · rw [ho] at h; exact absurd rfl h
              · exact (Failed.split hle1 (Nat.le_trans hw.calls h4.calls)).2 (.inl ((Failed.split hle0 h1.calls).2 (.inr h)))
            · exact (Failed.split hle2 h4.calls).2 (.inr h)
          · have he3 := (h5 hr).1
            have he2 := (h4.good he3).1
            rcases (Failed.split hle2 h4.calls).1 hf with h | h
            · rcases (Failed.split hle1 hw.calls).1 h with h | h
              · rcases (Failed.split hle0 h1.calls).1 h with h | h
                · exact hnof h
                · exact h1.faults h (by rw [← ho2]; exact he2)
              · exact hw0 h
            · exact h4.faults h he3
          · obtain ⟨he3, hb3⟩ := h5 hr
            obtain ⟨he2, hc3⟩ := h4.good he3
            rw [ho2] at he2
            have hds := h2 he2
            injection hds with hds _
            subst hds
            have hcon := (h1.good he2).2
            constructor
            · have hex : s3.files cfg.docs ≠ none := by
                have hx := h4.exist
                rw [ho2, hnm1] at hx
                refine hx ?_
                rw [hw.files _ (fun h => hne h.symm)]
                have hy := h1.exist
                rw [ho] at hy
                exact hy (by rw [hup0]; simp)
              unfold content at hc3 hcon
              rw [hb3, h4.name, ho2, hnm1, hw.files _ (fun h => hne h.symm)] at hc3
              rw [hnm1, ho, hup0] at hcon
              rw [hcon] at hc3
              simp only [List.append_nil, Option.getD_some, List.nil_append] at hc3
              cases hf : s3.files cfg.docs with
              | none => exact absurd hf hex
              | some c => rw [hf] at hc3; rw [← hc3]; rfl
            · rw [h4.files _ (by rw [ho2, hnm1]; exact hne)]
              exact hw.bytes rfl
    · exact spec_pure.2 ⟨Nat.le_succ _, fun _ _ _ => rfl, ⟨fun _ => Failed.one.2 (by rw [hd]; simp), fun _ => by simp⟩, (fun h => nomatch h)⟩

/-! ### the files of the n-grams -/

/-- Nothing went wrong so far: the writers `base`, `base + 1`, … are those of the files `name 0`, `name 1`, …, to which the texts `outs`
were written. -/
structure Fine (dev : Device) (s0 : Disk) (base : Nat) (name : Nat → String) (order : Nat) (s : Disk) (outs : List (List UInt8)) : Prop where
  len : s.outs.length = base + order
  names : ∀ i, i < order → (outAt s (base + i)).name = name i
  errs : ∀ i, i < order → (outAt s (base + i)).err = none
  cont : ∀ i, i < order → content s (base + i) = (outs[i]?).getD []
  exist : ∀ i, i < order → s.files (name i) ≠ none
  olen : outs.length = order
  frame : ∀ n, (∀ i, i < order → n ≠ name i) → s.files n = s0.files n
  calls : s0.calls ≤ s.calls
  nofail : ¬ Failed dev s0.calls s.calls

/-- Something went wrong. -/
structure Broken (dev : Device) (s0 : Disk) (name : Nat → String) (order : Nat) (s : Disk) : Prop where
  frame : ∀ n, (∀ i, i < order → n ≠ name i) → s.files n = s0.files n
  calls : s0.calls ≤ s.calls
  fail : Failed dev s0.calls s.calls

variable {s0 : Disk} {base : Nat} {name : Nat → String} {order : Nat}

theorem Fine.step {s s' : Disk} {outs : List (List UInt8)} (hn : ∀ i j, i < order → j < order → name i = name j → i = j)
    (h : Fine dev s0 base name order s outs) {i : Nat} (hi : i < order) {B : List UInt8} (he : Ext dev s s' (base + i) B) :
    ((outAt s' (base + i)).err = none → Fine dev s0 base name order s' (outs.set i ((outs[i]?).getD [] ++ B))) ∧
    ((outAt s' (base + i)).err ≠ none → Broken dev s0 name order s') := by
  have hframe : ∀ n, (∀ i, i < order → n ≠ name i) → s'.files n = s0.files n := fun n hne => by
    rw [he.files n (by rw [h.names i hi]; exact hne i hi), h.frame n hne]
  constructor
  · intro herr
    have hother : ∀ j, j < order → j ≠ i → outAt s' (base + j) = outAt s (base + j) := fun j _ hji =>
      outAt_congr (he.other _ (by omega))
    refine ⟨by rw [he.len, h.len], ?_, ?_, ?_, ?_, by rw [List.length_set, h.olen], hframe, Nat.le_trans h.calls he.calls, ?_⟩
    · intro j hj
      by_cases hji : j = i
      · subst hji; rw [he.name, h.names j hj]
      · rw [hother j hj hji, h.names j hj]
    · intro j hj
      by_cases hji : j = i
      · subst hji; exact herr
      · rw [hother j hj hji, h.errs j hj]
    · intro j hj
      by_cases hji : j = i
      · subst hji
        rw [(he.good herr).2, h.cont j hj, List.getElem?_set_self (by rw [h.olen]; exact hj)]
        rfl
      · rw [List.getElem?_set_ne (Ne.symm hji), ← h.cont j hj]
        unfold content
        rw [hother j hj hji, he.files]
        rw [h.names i hi, h.names j hj]
        exact fun e => hji (hn j i hj hi e)
    · intro j hj
      by_cases hji : j = i
      · subst hji
        have := he.exist
        rw [h.names j hj] at this
        exact this (h.exist j hj)
      · rw [he.files]
        · exact h.exist j hj
        · rw [h.names i hi]; exact fun e => hji (hn j i hj hi e)
    · intro hf
      rcases (Failed.split h.calls he.calls).1 hf with hf | hf
      · exact h.nofail hf
      · exact he.faults hf herr
  · intro herr
    refine ⟨hframe, Nat.le_trans h.calls he.calls, ?_⟩
    rcases he.cause herr with hc | hc
    · exact absurd (h.errs i hi) hc
    · exact (Failed.split h.calls he.calls).2 (.inr hc)

theorem Broken.mono {s : Disk} {order' : Nat} (h : Broken dev s0 name order s) (hle : order ≤ order') : Broken dev s0 name order' s :=
  ⟨fun n hn => h.frame n fun i hi => hn i (by omega), h.calls, h.fail⟩

theorem wCreateAll_spec : ∀ (m k : Nat) {s : Disk}, (∀ i j, i < k + m → j < k + m → name i = name j → i = j) →
    Fine dev s0 base name k s (List.replicate k []) →
    spec (wCreateAll dev name (List.range' k m)) s fun r s' =>
      (r = .ok (List.range' (base + k) m) ∧ Fine dev s0 base name (k + m) s' (List.replicate (k + m) [])) ∨
      (∃ e, r = .error e ∧ Broken dev s0 name (k + m) s')
  | 0, k, s, _, h => spec_pure.2 (.inl ⟨rfl, h⟩)
  | m + 1, k, s, hn, h => by
    simp only [List.range'_succ, wCreateAll]
    refine spec_bind.2 (spec_createOutput.2 ⟨fun hd => ?_, fun n e hd => ?_⟩)
    · have h' : Fine dev s0 base name (k + 1) ⟨s.files.update (name k) [], s.calls + 1, s.outs ++ [⟨name k, [], none⟩]⟩
          (List.replicate (k + 1) []) := by
        have hlast : outAt ⟨s.files.update (name k) [], s.calls + 1, s.outs ++ [⟨name k, [], none⟩]⟩ (base + k) = ⟨name k, [], none⟩ := by
          rw [← h.len]; exact outAt_append_last s _
        have hprev : ∀ j, j < k → outAt ⟨s.files.update (name k) [], s.calls + 1, s.outs ++ [⟨name k, [], none⟩]⟩ (base + j) = outAt s (base + j) :=
          fun j hj => outAt_congr (List.getElem?_append_left (by rw [h.len]; omega))
        have hne : ∀ j, j < k → name j ≠ name k := fun j hj e => by
          have := hn j k (by omega) (by omega) e
          omega
        refine ⟨?_, ?_, ?_, ?_, ?_, by simp, ?_, Nat.le_trans h.calls (Nat.le_succ _), ?_⟩
        · simp [h.len]; omega
        · intro j hj
          by_cases hjk : j = k
          · subst hjk; rw [hlast]
          · rw [hprev j (by omega), h.names j (by omega)]
        · intro j hj
          by_cases hjk : j = k
          · subst hjk; rw [hlast]
          · rw [hprev j (by omega), h.errs j (by omega)]
        · intro j hj
          have hg : ((List.replicate (k + 1) ([] : List UInt8))[j]?).getD [] = [] := by
            rw [List.getElem?_replicate]; split <;> rfl
          rw [hg]
          by_cases hjk : j = k
          · subst hjk
            unfold content
            rw [hlast]
            simp [update_self]
          · have hc := h.cont j (by omega)
            unfold content at hc ⊢
            rw [hprev j (by omega)]
            rw [h.names j (by omega)] at hc ⊢
            simp only [update_ne _ _ (hne j (by omega))]
            rw [hc, List.getElem?_replicate]
            split <;> rfl
        · intro j hj
          by_cases hjk : j = k
          · subst hjk; simp [update_self]
          · simp only [update_ne _ _ (hne j (by omega))]
            exact h.exist j (by omega)
        · intro n hne'
          simp only [update_ne _ _ (hne' k (by omega))]
          exact h.frame n fun i hi => hne' i (by omega)
        · intro hf
          rcases (Failed.split h.calls (Nat.le_succ _)).1 hf with hf | hf
          · exact h.nofail hf
          · exact Failed.one.1 hf hd
      have ih := wCreateAll_spec m (k + 1) (by rw [show k + 1 + m = k + (m + 1) by omega]; exact hn) h'
      simp only
      refine spec_bind.2 (spec_mono ih ?_)
      rintro r s2 (⟨rfl, h2⟩ | ⟨e, rfl, h2⟩)
      · rw [show k + 1 + m = k + (m + 1) by omega] at h2
        exact spec_pure.2 (.inl ⟨by rw [h.len, Nat.add_assoc], h2⟩)
      · rw [show k + 1 + m = k + (m + 1) by omega] at h2
        exact spec_pure.2 (.inr ⟨e, rfl, h2⟩)
    · refine spec_pure.2 (.inr ⟨e, rfl, fun n hn => h.frame n fun i hi => hn i (by omega), Nat.le_trans h.calls (Nat.le_succ _), ?_⟩)
      exact (Failed.split h.calls (Nat.le_succ _)).2 (.inr (Failed.one.2 (by rw [hd]; simp)))

/-- The result of a step: fine, or an error. -/
def Outcome (dev : Device) (s0 : Disk) (base : Nat) (name : Nat → String) (order : Nat) (outs : List (List UInt8)) (r : Option Err) (s : Disk) : Prop :=
  (r = none ∧ Fine dev s0 base name order s outs) ∨ (r ≠ none ∧ Broken dev s0 name order s)

theorem wPut_spec {s : Disk} {outs outs' : List (List UInt8)} (hn : ∀ i j, i < order → j < order → name i = name j → i = j)
    (h : Fine dev s0 base name order s outs) {g : List Bytes} {c : Nat} (hp : writerPut outs g c = .ok outs') :
    spec (wPut dev (List.range' base order) g c) s (Outcome dev s0 base name order outs') := by
  unfold writerPut at hp
  unfold wPut
  by_cases h0 : g.length = 0
  · rw [if_pos h0] at hp ⊢
    cases hp
    exact spec_pure.2 (.inl ⟨rfl, h⟩)
  · rw [if_neg h0] at hp ⊢
    cases ho : outs[g.length - 1]? with
    | none => rw [ho] at hp; cases hp
    | some o =>
      rw [ho] at hp
      cases hp
      have hi : g.length - 1 < order := by
        rw [← h.olen]; exact (List.getElem?_eq_some_iff.1 ho).1
      have hr : (List.range' base order)[g.length - 1]? = some (base + (g.length - 1)) := by
        rw [List.getElem?_range' hi]; simp
      rw [hr]
      simp only
      refine spec_bind.2 (spec_mono (write_spec _ (by rw [h.len]; omega)) ?_)
      rintro ⟨n, e⟩ s' ⟨h1, h2, h3⟩
      obtain ⟨f1, f2⟩ := h.step hn hi h1
      rw [ho] at f1
      dsimp only at h3
      refine spec_pure.2 ?_
      cases e with
      | none => exact .inl ⟨rfl, f1 h3.symm⟩
      | some e => exact .inr ⟨by simp, f2 (by rw [← h3]; simp)⟩

/-- The walk, as a fold over the calls of the callback. -/
def putAll (dev : Device) (hs : List Nat) : List (List Bytes × Nat) → Option Err × Disk → Option Err × Disk
  | [], st => st
  | pc :: calls, st => putAll dev hs calls (wCall dev hs st pc.1 pc.2)

theorem putAll_eq {hs : List Nat} : ∀ (calls : List (List Bytes × Nat)) (st : Option Err × Disk),
    foldE (fun (st : Option Err × Disk) pc => (.ok (wCall dev hs st pc.1 pc.2) : Except Err (Option Err × Disk))) st calls = .ok (putAll dev hs calls st)
  | [], _ => rfl
  | pc :: calls, st => by
    rw [foldE]
    exact putAll_eq calls _

theorem putAll_error {hs : List Nat} {e : Err} : ∀ (calls : List (List Bytes × Nat)) (s : Disk), putAll dev hs calls (some e, s) = (some e, s)
  | [], _ => rfl
  | _ :: calls, s => putAll_error calls s

theorem putAll_spec (hn : ∀ i j, i < order → j < order → name i = name j → i = j) : ∀ (calls : List (List Bytes × Nat)) {s : Disk}
    {outs texts : List (List UInt8)}, Fine dev s0 base name order s outs →
    foldE (fun s pc => writerPut s pc.1 pc.2) outs calls = .ok texts →
    Outcome dev s0 base name order texts (putAll dev (List.range' base order) calls (none, s)).1
      (putAll dev (List.range' base order) calls (none, s)).2
  | [], s, outs, texts, h, hf => by
    cases hf
    exact .inl ⟨rfl, h⟩
  | pc :: calls, s, outs, texts, h, hf => by
    rw [foldE] at hf
    cases hp : writerPut outs pc.1 pc.2 with
    | error e => rw [hp] at hf; cases hf
    | ok outs' =>
      rw [hp] at hf
      have hst := wPut_spec hn h hp
      unfold spec at hst
      show Outcome dev s0 base name order texts (putAll dev (List.range' base order) calls (wPut dev (List.range' base order) pc.1 pc.2 s)).1
        (putAll dev (List.range' base order) calls (wPut dev (List.range' base order) pc.1 pc.2 s)).2
      generalize wPut dev (List.range' base order) pc.1 pc.2 s = st at hst ⊢
      obtain ⟨r, s'⟩ := st
      rcases hst with ⟨hr, hs⟩ | ⟨hr, hs⟩
      · dsimp only at hr hs
        subst hr
        exact putAll_spec hn calls hs hf
      · dsimp only at hr hs
        cases r with
        | none => exact absurd rfl hr
        | some e =>
          rw [putAll_error]
          exact .inr ⟨by simp, hs⟩

theorem wCloseAll_spec {texts : List (List UInt8)} (hn : ∀ i j, i < order → j < order → name i = name j → i = j) : ∀ (m k : Nat) {s : Disk},
    k + m = order → Fine dev s0 base name order s texts → (∀ i, i < k → (outAt s (base + i)).buf = []) →
    spec (wCloseAll dev (List.range' (base + k) m)) s fun r s' => Outcome dev s0 base name order texts r s' ∧
      (r = none → ∀ i, i < order → (outAt s' (base + i)).buf = [])
  | 0, k, s, hk, h, hb => spec_pure.2 ⟨.inl ⟨rfl, h⟩, fun _ i hi => hb i (by omega)⟩
  | m + 1, k, s, hk, h, hb => by
    simp only [List.range'_succ, wCloseAll]
    refine spec_bind.2 (spec_mono (close_closes s (by rw [h.len]; omega)) ?_)
    rintro r s' ⟨h1, h2, h3⟩
    obtain ⟨f1, f2⟩ := h.step hn (i := k) (by omega) h1
    cases r with
    | some e => exact spec_pure.2 ⟨.inr ⟨by simp, f2 (h3 (by simp))⟩, fun h => nomatch h⟩
    | none =>
      obtain ⟨he, hbuf⟩ := h2 rfl
      have h' := f1 he
      have hset : texts.set k ((texts[k]?).getD [] ++ []) = texts := by
        have hk' : k < texts.length := by rw [h.olen]; omega
        rw [List.getElem?_eq_getElem hk']
        simp
      rw [hset] at h'
      refine wCloseAll_spec hn m (k + 1) (by omega) h' ?_
      intro i hi
      by_cases hik : i = k
      · subst hik; exact hbuf
      · rw [outAt_congr (h1.other (base + i) (by omega))]
        exact hb i (by omega)

/-- What the writer of n-gram files does to a disk. -/
structure WroteFiles (dev : Device) (s s' : Disk) (r : Option Err) (name : Nat → String) (order : Nat) (texts : List (List UInt8)) : Prop where
  calls : s.calls ≤ s'.calls
  files : ∀ n, (∀ i, i < order → n ≠ name i) → s'.files n = s.files n
  result : r ≠ none ↔ Failed dev s.calls s'.calls
  bytes : r = none → ∀ i, i < order → s'.files (name i) = texts[i]?

theorem Outcome.broken {s s' : Disk} {e : Err} {texts : List (List UInt8)} (h : Broken dev s name order s') :
    WroteFiles dev s s' (some e) name order texts :=
  ⟨h.calls, h.frame, ⟨fun _ => h.fail, fun _ => by simp⟩, fun h => nomatch h⟩

theorem wNGrams_spec (hn : ∀ i j, i < order → j < order → name i = name j → i = j) {t : CountTrie}
    {ord : List Bytes → List (Nat × CTNode) → List (Nat × CTNode)} {calls : List (List Bytes × Nat)}
    (hw : ∀ (σ : Type) (walker : σ → List Bytes → Nat → Except Err σ) (s : σ),
      t.walk ord walker s = foldE (fun s pc => walker s pc.1 pc.2) s calls) {texts : List Bytes} (ht : nGramWrite order t ord = .ok texts)
    (s : Disk) : spec (wNGrams dev name order t ord) s fun r s' => WroteFiles dev s s' r name order texts := by
  unfold wNGrams
  have h0 : Fine dev s s.outs.length name 0 s (List.replicate 0 []) :=
    ⟨rfl, fun i hi => absurd hi (Nat.not_lt_zero i), fun i hi => absurd hi (Nat.not_lt_zero i), fun i hi => absurd hi (Nat.not_lt_zero i),
      fun i hi => absurd hi (Nat.not_lt_zero i), rfl, fun _ _ => rfl, Nat.le_refl _, Failed.none⟩
  have hc := wCreateAll_spec order 0 (by simpa using hn) h0
  simp only [Nat.zero_add, Nat.add_zero] at hc
  rw [List.range_eq_range']
  refine spec_bind.2 (spec_mono hc ?_)
  rintro r s1 (⟨rfl, h1⟩ | ⟨e, rfl, h1⟩)
  · have hwalk : wWalk dev t ord (List.range' s.outs.length order) s1 = putAll dev (List.range' s.outs.length order) calls (none, s1) := by
      have e := (hw (Option Err × Disk) (fun st g c => .ok (wCall dev (List.range' s.outs.length order) st g c)) (none, s1)).trans (putAll_eq calls _)
      unfold wWalk
      simp only [e]
    have ht' : foldE (fun s pc => writerPut s pc.1 pc.2) (List.replicate order []) calls = .ok texts := by
      rw [← hw]; exact ht
    have hput := putAll_spec hn calls h1 ht'
    rw [← hwalk] at hput
    refine spec_bind.2 ?_
    refine spec_mono (Q := Outcome dev s s.outs.length name order texts) hput ?_
    rintro r s2 (⟨rfl, h2⟩ | ⟨hr, h2⟩)
    · refine spec_mono (wCloseAll_spec (k := 0) (m := order) hn (by omega) h2 fun i hi => absurd hi (Nat.not_lt_zero i)) ?_
      rintro r s3 ⟨⟨rfl, h3⟩ | ⟨hr, h3⟩, hb⟩
      · refine ⟨h3.calls, h3.frame, ⟨fun h => absurd rfl h, fun hf => absurd hf h3.nofail⟩, fun _ i hi => ?_⟩
        have hc := h3.cont i hi
        unfold content at hc
        rw [hb rfl i hi, h3.names i hi, List.append_nil] at hc
        have hlt : i < texts.length := by rw [h3.olen]; exact hi
        rw [List.getElem?_eq_getElem hlt] at hc ⊢
        cases hf : s3.files (name i) with
        | none => exact absurd hf (h3.exist i hi)
        | some b => rw [hf] at hc; simp only [Option.getD_some] at hc; rw [hc]
      · cases r with
        | none => exact absurd rfl hr
        | some e => exact Outcome.broken h3
    · cases r with
      | none => exact absurd rfl hr
      | some e => exact spec_pure.2 (Outcome.broken h2)
  · exact spec_pure.2 (Outcome.broken h1)

end Verif.Faulty
