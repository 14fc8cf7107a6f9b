import Verif.Spec.Text
/-
Specification vocabulary for numbers at the beginning of a text.
-/
namespace Loc.Spec

/-- '0' to '9' -/
def IsDecimal (c : Byte) : Prop := 48 ≤ c.toNat ∧ c.toNat ≤ 57

/-- A space, or one of the characters 9 to 13 -/
def IsWhite (c : Byte) : Prop := c = 32 ∨ 9 ≤ c.toNat ∧ c.toNat ≤ 13

/-- The text begins with the number `v`: white space, a sign, and all decimal digits that follow; without digits it is 0. -/
def BeginsWith (s : CStr) (v : Int) : Prop :=
  ∃ (white sign ds rest : CStr) (k : Nat), s = white ++ (sign ++ (ds ++ rest)) ∧ (∀ c ∈ white, IsWhite c) ∧
    (sign = [] ∨ sign = [43] ∨ sign = [45]) ∧ ((ds = [] ∧ k = 0) ∨ Digits k ds) ∧ (∀ c, rest.head? = some c → ¬ IsDecimal c) ∧
    (sign = [] → ds = [] → ∀ c, rest.head? = some c → ¬ IsWhite c ∧ c ≠ 43 ∧ c ≠ 45) ∧
    v = if sign = [45] then -(k : Int) else k

/-- The nearest number a `long` of 64 bits can hold -/
def nearestLong (v : Int) : Int := if v < -2 ^ 63 then -2 ^ 63 else if v > 2 ^ 63 - 1 then 2 ^ 63 - 1 else v

end Loc.Spec
