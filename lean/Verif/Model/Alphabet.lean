import Verif.Model.Text
/- Model of pkg/alphabet. An alphabet is a value with the two methods the code uses; the kinds of alphabets are an
inductive type. -/
namespace Verif

/-- The kinds of alphabets — pkg/alphabet/*.go. (`englishAlphabet` and `numberAlphabet` only embed a sequential one.) -/
inductive Alphabet where
  | sequential (min max : Nat)
  | simple (chars : List Nat)
  | russian (parent : Alphabet)
  | composite (parts : List Alphabet)

namespace Alphabet

/-- `NewSequentialAlphabet`: the list `chars`: the loop `for ch := min; ch <= max; ch++` —
pkg/alphabet/sequential_alphabet.go:10-14. -/
def seqChars (min max : Nat) : List Nat := (List.range (max + 1 - min)).map (min + ·)

/-- `Chars` — pkg/alphabet/alphabet.go:48-50, russian_alphabet.go:28-30, composite_alphabet.go:23-31. -/
def chars : Alphabet → List Nat
  | sequential min max => seqChars min max
  | simple cs => cs
  | russian p => p.chars
  | composite ps => ps.attach.flatMap fun p => p.1.chars
decreasing_by
  all_goals first
    | (simp_wf; done)
    | (have := List.sizeOf_lt_of_mem p.2; simp_wf; omega)

/-- `Size` — pkg/alphabet/alphabet.go:43-45, russian_alphabet.go:24-26. -/
def size (a : Alphabet) : Nat := a.chars.length

/-- `Has` — pkg/alphabet/sequential_alphabet.go:23-25, simple_alphabet.go:24-27, russian_alphabet.go:16-22 (0x451 is
'ё', 0x435 is 'е'), composite_alphabet.go:35-45. -/
def has : Alphabet → Nat → Bool
  | sequential min max, r => decide (r ≥ min) && decide (r ≤ max)
  | simple cs, r => decide (r ∈ cs)
  | russian p, r => if r = 0x451 then p.has 0x435 else p.has r
  | composite ps, r => ps.attach.any fun p => p.1.has r
decreasing_by
  all_goals first
    | (simp_wf; done)
    | (have := List.sizeOf_lt_of_mem p.2; simp_wf; omega)

/-- pkg/alphabet/english_alphabet.go:9-13. -/
def english : Alphabet := sequential 0x61 0x7A

/-- pkg/alphabet/number_alphabet.go:9-13. -/
def numbers : Alphabet := sequential 0x30 0x39

/-- pkg/alphabet/russian_alphabet.go:9-13 ('а' = 0x430, 'я' = 0x44F). -/
def russianAlphabet : Alphabet := russian (sequential 0x430 0x44F)

/-- The bytes of an ASCII literal. -/
def ascii (s : String) : Bytes := s.toList.map fun c => UInt8.ofNat c.toNat

/-- The named alphabets — pkg/alphabet/alphabet.go:14-20. -/
def named (name : Bytes) : Option Alphabet :=
  if name = ascii "english" then some english
  else if name = ascii "russian" then some russianAlphabet
  else if name = ascii "numbers" then some numbers
  else none

/-- One entry of a description — pkg/alphabet/alphabet.go:26-33. -/
def ofEntry (symbols : Bytes) : Alphabet := (named symbols).getD (simple (runesOf symbols))

/-- `NewCompositeAlphabet`: `sort` stands for the unstable sort by size — pkg/alphabet/composite_alphabet.go:12-32. -/
def newComposite (sort : List Alphabet → List Alphabet) (as : List Alphabet) : Alphabet := composite (sort as)

/-- `CreateAlphabet` — pkg/alphabet/alphabet.go:23-36. -/
def create (sort : List Alphabet → List Alphabet) (description : List Bytes) : Alphabet :=
  newComposite sort (description.map ofEntry)

end Alphabet
end Verif
