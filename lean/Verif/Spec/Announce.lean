import Verif.Spec.Dump
import Verif.Spec.Network
/-
Specification vocabulary for importing routes (`location-importer update-announcements`).
-/
namespace Loc.Spec

/-! ## Replies of BIRD -/

/-- Space, tab, newline, vertical tab, form feed, carriage return. -/
def GapChar (c : Byte) : Prop := c ∈ [(32 : Byte), 9, 10, 11, 12, 13]

instance (c : Byte) : Decidable (GapChar c) := inferInstanceAs (Decidable (_ ∈ _))

/-- A line that is not empty, and neither the greeting nor the end of a reply. -/
def PlainLine (t : Bytes) : Prop := t ≠ [] ∧ 10 ∉ t ∧ t.take 4 ≠ ascii "0000" ∧ t.take 4 ≠ ascii "0001"

instance (t : Bytes) : Decidable (PlainLine t) := inferInstanceAs (Decidable (_ ∧ _))

/-- What arrives from the server, in pieces of any size, is a greeting, these lines, and the mark of the end.  Whatever may
    follow does not matter. -/
def BirdReply (chunks : List Bytes) (lines : List Bytes) : Prop :=
  (∀ t ∈ lines, PlainLine t) ∧
  ∃ greeting bye more : Bytes, 10 ∉ greeting ∧ 10 ∉ bye ∧
    chunks.flatten = ascii "0001 " ++ greeting ++ [10] ++ (lines.map (· ++ [10])).flatten ++ ascii "0000 " ++ bye ++ [10] ++ more

/-- The text of a line behind a code of four digits and a space or dash, or all of it if there is no code. -/
def BirdText (t s : Bytes) : Prop :=
  (∃ (code : Bytes) (c : Byte), code.length = 4 ∧ (∀ x ∈ code, 48 ≤ x.toNat ∧ x.toNat ≤ 57) ∧ (c = 32 ∨ c = 45) ∧ t = code ++ c :: s) ∨
  ((∀ (code : Bytes) (c : Byte) s', code.length = 4 → (∀ x ∈ code, 48 ≤ x.toNat ∧ x.toNat ≤ 57) → c = 32 ∨ c = 45 → t ≠ code ++ c :: s') ∧ s = t)

/-- A line of the list of routes. -/
inductive RouteLine
  /-- " NETWORK INFO[ASnumber?]": the best route to a network; without an AS the route ends with a set of AS. -/
  | route (name info : Bytes) (origin : Option Bytes) (mark : Byte)
  /-- Headers, gateways, attributes … -/
  | other (text : Bytes)
  deriving DecidableEq

def RouteLine.text : RouteLine → Bytes
  | .route name info origin mark =>
    [32] ++ name ++ [32] ++ info ++ ascii "[" ++ (match origin with | none => [] | some d => ascii "AS" ++ d) ++ [mark] ++ ascii "]"
  | .other text => text

/-- Lines as BIRD prints them: the network is a word, the text between has no line breaks and no "[AS", the mark is a
    letter or the like; other lines have no brackets. -/
def RouteLine.Ok : RouteLine → Prop
  | .route name info origin mark =>
    (name ≠ [] ∧ ∀ c ∈ name, ¬ GapChar c) ∧ (info ≠ [] ∧ 10 ∉ info ∧ ¬ ascii "[AS" <:+: info) ∧
    (∀ d, origin = some d → ∃ a, Digits a d) ∧ mark ≠ 10
  | .other text => PlainLine text ∧ 91 ∉ text

/-- The same line with "[i]" instead of "[ASi]" -/
def RouteLine.blank : RouteLine → RouteLine
  | .route name info (some []) mark => .route name info none mark
  | x => x

/-- The networks with the AS that originate them, in the order of the list. -/
inductive Originates : List RouteLine → List (Network × Nat) → Prop
  | nil : Originates [] []
  | other {text ls evs} : Originates ls evs → Originates (.other text :: ls) evs
  | aggregated {name info mark ls evs} : Originates ls evs → Originates (.route name info none mark :: ls) evs
  | route {name info d mark n a ls evs} : NamesNet name n → Digits a d → a < 2 ^ 63 → Originates ls evs →
      Originates (.route name info (some d) mark :: ls) ((n, a) :: evs)

/-- "  BGP.as_path: … 65000 {65001}": a path that ends with one AS and a set of one AS. -/
def PathLine (s d : Bytes) : Prop :=
  ∃ w x e : Bytes, (w ≠ [] ∧ ∀ c ∈ w, GapChar c) ∧ (∃ a, Digits a d) ∧ (∃ a, Digits a e) ∧ 10 ∉ x ∧
    s = w ++ ascii "BGP.as_path:" ++ x ++ ascii " " ++ d ++ ascii " {" ++ e ++ ascii "}"

/-- The first line with such a path. -/
def FirstPath (lines : List Bytes) (d : Bytes) : Prop :=
  ∃ pre t post s, lines = pre ++ t :: post ∧ BirdText t s ∧ PathLine s d ∧ ∀ u ∈ pre, ∀ v d', BirdText u v → ¬ PathLine v d'

/-- The same for the routes without an AS, which are asked for one by one. -/
inductive Aggregates (bird : Bytes → List Bytes) : List RouteLine → List (Network × Nat) → Prop
  | nil : Aggregates bird [] []
  | other {text ls evs} : Aggregates bird ls evs → Aggregates bird (.other text :: ls) evs
  | route {name info d mark ls evs} : Aggregates bird ls evs → Aggregates bird (.route name info (some d) mark :: ls) evs
  | found {name info mark lines d n a ls evs} : BirdReply (bird (ascii "show route " ++ name ++ ascii " all")) lines →
      FirstPath lines d → NamesNet name n → Digits a d → a < 2 ^ 63 → Aggregates bird ls evs →
      Aggregates bird (.route name info none mark :: ls) ((n, a) :: evs)
  | missing {name info mark lines ls evs} : BirdReply (bird (ascii "show route " ++ name ++ ascii " all")) lines →
      (∀ d, ¬ FirstPath lines d) → Aggregates bird ls evs → Aggregates bird (.route name info none mark :: ls) evs

/-- What the database does not take: something that is no network, or a number that does not fit. -/
def Unusable (name d : Bytes) : Prop := (∀ n, ¬ NamesNet name n) ∨ ∀ a, Digits a d → 2 ^ 63 ≤ a

/-- One of the routes cannot be taken: among those with an AS, or among those that are asked for, if all of these are answered. -/
def RouteRefused (bird : Bytes → List Bytes) (ls : List RouteLine) : Prop :=
  (∃ name info d mark, RouteLine.route name info (some d) mark ∈ ls ∧ Unusable name d) ∨
  ((∀ name info mark, RouteLine.route name info none mark ∈ ls →
      ∃ lines, BirdReply (bird (ascii "show route " ++ name ++ ascii " all")) lines) ∧
    ∃ name info mark lines d, RouteLine.route name info none mark ∈ ls ∧
      BirdReply (bird (ascii "show route " ++ name ++ ascii " all")) lines ∧ FirstPath lines d ∧ Unusable name d)

/-- The last word about a network. -/
def LastWord (evs : List (Network × Nat)) (n : Network) (a : Nat) : Prop :=
  ∃ pre post, evs = pre ++ (n, a) :: post ∧ ∀ x ∈ post, x.1 ≠ n

/-! ## What is kept -/

/-- Networks that are never wanted: "this" network, loopback, private, documentation and benchmarks, carrier-grade NAT, link
    local, 6to4, multicast, reserved. -/
def neverWanted : List String :=
  ["0.0.0.0/8", "127.0.0.0/8", "10.0.0.0/8", "172.16.0.0/12", "192.168.0.0/16", "192.0.0.0/24", "192.0.2.0/24",
    "198.18.0.0/15", "198.51.100.0/24", "203.0.113.0/24", "100.64.0.0/10", "169.254.0.0/16", "192.88.99.0/24", "2002::/16",
    "224.0.0.0/4", "240.0.0.0/4"]

/-- The route is kept: no default route, IPv6 only from 2000::/3, not in one of the networks that are never wanted, not
    smaller than /24 or /48, a public AS, and seen within 14 days. -/
structure RouteKept (now : Nat) (n : Network) (asn seen : Nat) : Prop where
  proper : netPrefix n ≠ 0
  unicast : n.family = .inet6 → ∃ m, NamesNet (ascii "2000::/3") m ∧ Inside n m
  wanted : ∀ s ∈ neverWanted, ∀ m, NamesNet (ascii s) m → ¬ Inside n m
  large : (n.family = .inet → netPrefix n ≤ 24) ∧ (n.family = .inet6 → netPrefix n ≤ 48)
  publicAs : (1 ≤ asn ∧ asn ≤ 23455) ∨ (23457 ≤ asn ∧ asn ≤ 64495) ∨ (131072 ≤ asn ∧ asn ≤ 4199999999)
  recent : now < seen + 14 * 24 * 60 * 60

end Loc.Spec
