import Verif.Model.Address
import Verif.Model.CountryCode
/-
Model of `src/network.c`: the network object and its predicates.
-/
namespace Loc

/-- `struct loc_network`, network.c:36-50.  Not modelled: `ctx`, `refcount` (see the lifetime
    model), and the cached `string`.  `pfx` is the raw prefix (IPv4: plus 96).  `cc0`, `cc1` are
    the first two bytes of `country_code`; the third is always NUL. -/
structure Network where
  family : Family
  first : Addr
  last : Addr
  pfx : Nat
  cc0 : Byte
  cc1 : Byte
  asn : BitVec 32
  flags : BitVec 32
  deriving DecidableEq, Repr

/-- `loc_network_new`, network.c:52-90 -/
def newNetwork (a : Addr) (p : Nat) : Res Network :=
  if !validPrefix a p then .error (.err EINVAL)
  else
    let raw := if isV4Mapped a then p + 96 else p
    let bitmask := prefixToBitmask raw
    let first := addrAnd a bitmask
    let last := addrOr first bitmask
    .ok { family := addrFamily first, first := first, last := last, pfx := raw,
          cc0 := 0, cc1 := 0, asn := 0, flags := 0 }

/-- `loc_network_prefix`, network.c:156-166 -/
def netPrefix (n : Network) : Nat :=
  match n.family with
  | .inet6 => n.pfx
  | .inet => n.pfx - 96

/-- `loc_network_matches_address`, network.c:188-199 -/
def matchesAddress (n : Network) (a : Addr) : Bool :=
  if addrCmp n.first a > 0 then false
  else if addrCmp n.last a < 0 then false
  else true

/-- `loc_network_get_country_code`, network.c:201-203 -/
def countryCode (n : Network) : CStr := ccString n.cc0 n.cc1

/-- `loc_network_set_country_code`, network.c:205-219.  An empty code only clears the first byte
    of the buffer. -/
def setCountryCode (n : Network) (cc : Option CStr) : Res Network :=
  match cc with
  | none => .ok { n with cc0 := 0 }
  | some [] => .ok { n with cc0 := 0 }
  | some s =>
    if !ccIsValid (some s) then .error (.err EINVAL)
    else match s with
      | [c0, c1] => .ok { n with cc0 := c0, cc1 := c1 }
      | _ => .error (.err EINVAL)   -- excluded by `ccIsValid`

/-- `loc_network_has_flag`, network.c:248-250 (non-zero means true) -/
def hasFlag (n : Network) (f : BitVec 32) : BitVec 32 := n.flags &&& f

/-- `loc_network_set_flag`, network.c:252-256 -/
def setFlag (n : Network) (f : BitVec 32) : Network := { n with flags := n.flags ||| f }

/-- `loc_network_set_asn`, network.c:242-246 -/
def setAsn (n : Network) (asn : BitVec 32) : Network := { n with asn := asn }

/-- `loc_network_matches_country_code`, network.c:221-236: the returned `int`; callers use it as a
    truth value, so the error return `-EINVAL` counts as true. -/
def matchesCountryCode (n : Network) (cc : Option CStr) : Int :=
  let flag := specialCodeToFlag cc
  if flag ≠ 0 then (hasFlag n flag).toInt
  else if !ccIsValid cc then -(EINVAL : Int)
  else match cc with
    | some [c0, c1] => if n.cc0 == c0 && n.cc1 == c1 then 1 else 0
    | _ => 0   -- excluded by `ccIsValid`

/-- `loc_network_cmp`, network.c:258-272 -/
def netCmp (a b : Network) : Int :=
  let r := addrCmp a.first b.first
  if r ≠ 0 then r
  else if a.pfx > b.pfx then 1
  else if a.pfx < b.pfx then -1
  else 0

/-- `loc_network_properties_cmp`, network.c:274-295 (`flags` is an enum without negative
    constants, compared as unsigned) -/
def propertiesCmp (a b : Network) : Int :=
  let r := ccCmp a.cc0 a.cc1 b.cc0 b.cc1
  if r ≠ 0 then r
  else if a.asn > b.asn then 1
  else if a.asn < b.asn then -1
  else if a.flags > b.flags then 1
  else if a.flags < b.flags then -1
  else 0

/-- `loc_network_overlaps`, network.c:297-313 -/
def overlaps (a b : Network) : Bool :=
  if matchesAddress a b.first then true
  else if matchesAddress b a.first then true
  else if matchesAddress a b.last then true
  else if matchesAddress b a.last then true
  else false

/-- `loc_network_is_subnet(self, other)`, network.c:315-331: is `b` contained in `a`? -/
def isSubnet (a b : Network) : Bool :=
  if a.pfx > b.pfx then false
  else if addrCmp a.first b.first > 0 then false
  else if addrCmp a.last b.last < 0 then false
  else true

/-- Lines network.c:363-379: copy country code, ASN and flags of `src` to a new network using the
    setters (their return values are ignored). -/
def copyProps (dst src : Network) : Network :=
  let d := ignoreErr (setCountryCode dst (some (countryCode src))) dst
  let d := if src.asn ≠ 0 then setAsn d src.asn else d
  setFlag d src.flags

/-- `loc_network_subnets`, network.c:333-382 -/
def subnets (n : Network) : Res (Network × Network) := do
  let p := netPrefix n + 1
  if !validPrefix n.first p then
    throw (.err EINVAL)
  let s1 ← newNetwork n.first p
  let s2 ← newNetwork (addrInc s1.last) p
  return (copyProps s1 n, copyProps s2 n)

/-- `loc_network_merge`, network.c:585-647.  `none`: `*n` stays `NULL` (no merge).  `ctz0`: see
    `ctz8`. -/
def mergeNetworks (ctz0 : Nat) (n1 n2 : Network) : Res (Option Network) :=
  if n1.family ≠ n2.family then .ok none
  else if n1.pfx ≠ n2.pfx then .ok none
  else if n1.pfx = 0 ∨ n2.pfx = 0 then .ok none
  else
    let prefix_ := netPrefix n1
    let bitlength := bitLength ctz0 n1.first
    if bitlength ≥ prefix_ then .ok none
    else
      let address := addrInc n1.last
      if addrCmp address n2.first ≠ 0 then .ok none
      else if propertiesCmp n1 n2 ≠ 0 then .ok none
      else match newNetwork n1.first (prefix_ - 1) with
        | .error e => .error e
        | .ok m => .ok (some { m with cc0 := n1.cc0, cc1 := n1.cc1, asn := n1.asn, flags := n1.flags })

end Loc
