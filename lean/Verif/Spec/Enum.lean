import Verif.Spec.File
import Verif.Model.Enumerator
/-
Specification vocabulary for enumerations.
-/
namespace Loc.Spec

/-- Lower case of a letter, other bytes unchanged. -/
def lower (c : Byte) : Byte := if 65 ≤ c.toNat ∧ c.toNat ≤ 90 then c + 32 else c

/-- The text `s` occurs somewhere in `name`, ignoring case. -/
def Occurs (s name : CStr) : Prop := ∃ pre mid post, name = pre ++ mid ++ post ∧ mid.map lower = s.map lower

/-- `n` continues with a zero after its first `k` bits, and some network with the same `k` bits continues with a one. -/
def BranchesOff (S : Network → Prop) (n : Network) (k : Nat) : Prop :=
  (prefixBits n)[k]? = some false ∧ ∃ m, S m ∧ (prefixBits n).take k ++ [true] <+: prefixBits m

/-- The depth-first search puts all nodes on the path to a network on its stack, and the one-branches it passes; for
    some network these are more than 255 entries. -/
def TooDeep (S : Network → Prop) : Prop :=
  ∃ n, S n ∧ ∃ ks : List Nat, ks.Nodup ∧ (∀ k ∈ ks, BranchesOff S n k) ∧ 255 < 1 + n.pfx + ks.length

/-- An IPv6 network smaller than ::/80 that contains all IPv4 addresses. -/
def AroundV4 (n : Network) : Prop :=
  81 ≤ n.pfx ∧ n.pfx ≤ 95 ∧ value n.first ≤ 0xffff00000000 ∧ 0xffffffffffff ≤ value n.last

/-- A network an enumeration with these filters asks for: of the family if one is set (`AF_INET` = 2,
    `AF_INET6` = 10), and, if countries, ASNs or flags are set, with one of the countries, one of the ASNs, or one of
    the flags. -/
def Wanted (f : Filter) (n : Network) : Prop :=
  (f.family ≠ 0 → f.family = 2 ∧ IsV4 n.first ∨ f.family = 10 ∧ ¬ IsV4 n.first) ∧
  ((f.countries = none ∧ f.asns = none ∧ f.flags = 0) ∨
    (∃ l, f.countries = some l ∧ ∃ c ∈ l, [c.c0, c.c1] = (props n).1) ∨
    (∃ l, f.asns = some l ∧ ∃ a ∈ l, a.number = n.asn) ∨
    (∃ i, f.flags.getLsbD i = true ∧ n.flags.getLsbD i = true))

/-- The countries of the filter were made by `loc_country_new`. -/
def FilterOk (f : Filter) : Prop := ∀ l, f.countries = some l → ∀ c ∈ l, ccIsValid (some [c.c0, c.c1]) = true

/-- An enumeration without filters. -/
def noFilter : Filter := ⟨0, none, none, 0⟩

/-- The outcomes of the first `k` calls of `next`, and the state afterwards. -/
def calls {σ α : Type} (next : σ → Res (Next α × σ)) : Nat → σ → Res (List (Next α) × σ)
  | 0, s => .ok ([], s)
  | k + 1, s =>
    match next s with
    | .error e => .error e
    | .ok (x, s) =>
      match calls next k s with
      | .error e => .error e
      | .ok (l, s) => .ok (x :: l, s)

end Loc.Spec
