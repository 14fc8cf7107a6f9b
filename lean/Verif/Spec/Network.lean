import Verif.Spec.Address
import Verif.Model.Network
/-
Specification vocabulary for networks.  Only what a caller can observe through the API (first and
last address, prefix, country code, ASN, flags) is used.
-/
namespace Loc.Spec

/-- Address `a` belongs to network `n`: it lies between the first and the last address. -/
def Contains (n : Network) (a : Addr) : Prop := value n.first ≤ value a ∧ value a ≤ value n.last

instance (n : Network) (a : Addr) : Decidable (Contains n a) := inferInstanceAs (Decidable (_ ∧ _))

/-- `n` is a CIDR block: the first address is aligned, the last address closes the block of
    `2 ^ (128 - pfx)` addresses, and the family is that of the addresses. -/
structure Block (n : Network) : Prop where
  le : n.pfx ≤ 128
  aligned : value n.first % 2 ^ (128 - n.pfx) = 0
  last_eq : value n.last = value n.first + (2 ^ (128 - n.pfx) - 1)
  fam : n.family = .inet ↔ IsV4 n.first

instance (n : Network) : Decidable (Block n) :=
  decidable_of_iff (n.pfx ≤ 128 ∧ value n.first % 2 ^ (128 - n.pfx) = 0 ∧
      value n.last = value n.first + (2 ^ (128 - n.pfx) - 1) ∧ (n.family = .inet ↔ IsV4 n.first))
    ⟨fun ⟨a, b, c, d⟩ => ⟨a, b, c, d⟩, fun ⟨a, b, c, d⟩ => ⟨a, b, c, d⟩⟩

/-- Same block of addresses. -/
def SameBlock (m n : Network) : Prop := value m.first = value n.first ∧ m.pfx = n.pfx

/-- Observable properties: country code, AS number, flags. -/
def props (n : Network) : CStr × BitVec 32 × BitVec 32 :=
  ((if n.cc0 = 0 then [] else if n.cc1 = 0 then [n.cc0] else [n.cc0, n.cc1]), n.asn, n.flags)

/-- A country code as documented: two letters A-Z, not beginning with X. -/
def ValidCC (s : CStr) : Prop :=
  ∃ c0 c1 : Byte, s = [c0, c1] ∧ 65 ≤ c0.toNat ∧ c0.toNat ≤ 90 ∧ 65 ≤ c1.toNat ∧ c1.toNat ≤ 90
    ∧ c0.toNat ≠ 88

/-- The stored country code is empty or a valid one. -/
def CountryOk (n : Network) : Prop := n.cc0 = 0 ∨ ValidCC [n.cc0, n.cc1]

instance (m n : Network) : Decidable (SameBlock m n) := inferInstanceAs (Decidable (_ ∧ _))

instance (s : CStr) : Decidable (ValidCC s) :=
  match s with
  | [c0, c1] => decidable_of_iff (65 ≤ c0.toNat ∧ c0.toNat ≤ 90 ∧ 65 ≤ c1.toNat ∧ c1.toNat ≤ 90
      ∧ c0.toNat ≠ 88)
    ⟨fun h => ⟨c0, c1, rfl, h⟩, fun ⟨d0, d1, e, h⟩ => by cases e; exact h⟩
  | [] => isFalse (by rintro ⟨_, _, h, _⟩; cases h)
  | [_] => isFalse (by rintro ⟨_, _, h, _⟩; cases h)
  | _ :: _ :: _ :: _ => isFalse (by rintro ⟨_, _, h, _⟩; cases h)

instance (n : Network) : Decidable (CountryOk n) := inferInstanceAs (Decidable (_ ∨ _))

/-- The network is a single host. -/
def IsHost (n : Network) : Prop := n.pfx = 128

/-- `m` lies inside `n`. -/
def Inside (m n : Network) : Prop := ∀ a, Contains m a → Contains n a

/-- `m` lies strictly inside `n`. -/
def StrictlyInside (m n : Network) : Prop := Inside m n ∧ ¬ SameBlock m n

/-- The two blocks ::/79 and ::fffe:0:0/95, the parents of the blocks adjacent to (or ending with)
    the IPv4 range. -/
def OddBlock (n : Network) : Prop :=
  (value n.first = 0 ∧ n.pfx = 79) ∨ (value n.first = 0xfffe00000000 ∧ n.pfx = 95)

instance (n : Network) : Decidable (OddBlock n) := inferInstanceAs (Decidable (_ ∨ _))

/-- On the way from `n` down to its subnet `o` one of the two odd blocks has to be cut. -/
def CutsOddBlock (n o : Network) : Prop :=
  (n.pfx ≤ 79 ∧ 79 < o.pfx ∧ value o.first < 2 ^ 49) ∨
  (n.pfx ≤ 95 ∧ 95 < o.pfx ∧ value o.first / 2 ^ 33 = 0x7fff)

instance (n o : Network) : Decidable (CutsOddBlock n o) := inferInstanceAs (Decidable (_ ∨ _))

/-- No two networks of the list share an address. -/
def PairwiseDisjoint (l : List Network) : Prop :=
  l.Pairwise (fun m n => ∀ a, ¬ (Contains m a ∧ Contains n a))

/-- Network order: by first address, then by prefix. -/
def Before (m n : Network) : Prop :=
  value m.first < value n.first ∨ (value m.first = value n.first ∧ m.pfx < n.pfx)

/-- Strictly ascending in network order. -/
def Ascending (l : List Network) : Prop := l.Pairwise Before

/-- Networks a program can obtain through the network API: created with `loc_network_new`, changed
    with the setters, split or merged. -/
inductive Built (ctz0 : Nat) : Network → Prop
  | new {a : Addr} {p : Nat} {n : Network} : newNetwork a p = .ok n → Built ctz0 n
  | country {n n' : Network} {cc : Option CStr} : Built ctz0 n → setCountryCode n cc = .ok n' → Built ctz0 n'
  | asn {n : Network} (x : BitVec 32) : Built ctz0 n → Built ctz0 (setAsn n x)
  | flag {n : Network} (f : BitVec 32) : Built ctz0 n → Built ctz0 (setFlag n f)
  | lower {n s1 s2 : Network} : Built ctz0 n → subnets n = .ok (s1, s2) → Built ctz0 s1
  | upper {n s1 s2 : Network} : Built ctz0 n → subnets n = .ok (s1, s2) → Built ctz0 s2
  | merged {m n k : Network} : Built ctz0 m → Built ctz0 n → mergeNetworks ctz0 m n = .ok (some k) → Built ctz0 k

end Loc.Spec
