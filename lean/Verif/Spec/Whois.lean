import Verif.Spec.Import
import Verif.Spec.Dump
import Verif.Spec.Summarize
import Verif.Model.Whois
/-
Specification vocabulary for the data of the registries (`location-importer update-whois`).
-/
namespace Loc.Spec

/-! ## Countries of networks -/

/-- A network as the database server holds it: made of an address and a prefix length, without properties; networks of IPv6
    do not contain IPv4-mapped addresses. -/
def InetValue (n : Network) : Prop :=
  (∃ a p, newNetwork a p = .ok n) ∧ (n.family = .inet6 → ∀ a, Contains n a → ¬ IsV4 a)

/-- Network and country of every entry. -/
def countriesIn (t : List (Network × Option CStr × CStr)) : List (Network × Option CStr) := t.map fun x => (x.1, x.2.1)

/-- No network occurs twice. -/
def UniqueNetworks {α : Type} (t : List (Network × α)) : Prop := (t.map (·.1)).Nodup

/-- `(n, c)` is one of the old entries, or one of the new ones and there is no old one for the same network. -/
def InEither (old new : List (Network × Option CStr)) (n : Network) (c : Option CStr) : Prop :=
  (n, c) ∈ old ∨ ((n, c) ∈ new ∧ ∀ c', (n, c') ∉ old)

/-- The country of the most specific entry around an address that names one; nothing if no entry around it does. -/
def CountryAt (entry : Network → Option CStr → Prop) (a : Addr) (x : Option CStr) : Prop :=
  (∃ n cc, entry n (some cc) ∧ Contains n a ∧ (∀ m cc', entry m (some cc') → Contains m a → m.pfx ≤ n.pfx) ∧ x = some cc) ∨
  ((∀ m cc, entry m (some cc) → ¬ Contains m a) ∧ x = none)

/-- No entry of its family is larger. -/
def AmongLargest (new : List (Network × Option CStr)) (n : Network) : Prop :=
  ∀ x ∈ new, x.1.family = n.family → n.pfx ≤ x.1.pfx

instance (new : List (Network × Option CStr)) (n : Network) : Decidable (AmongLargest new n) :=
  inferInstanceAs (Decidable (∀ x ∈ new, _ → _))

/-! ## Ranges of addresses -/

/-- A network without properties. -/
def BareNetwork (n : Network) : Prop := ∃ a p, newNetwork a p = .ok n

/-- The network lies in the range from `a` to `b`. -/
def InRangeOf (a b : Addr) (n : Network) : Prop := value a ≤ value n.first ∧ value n.last ≤ value b

/-- One of the largest networks in the range from `a` to `b`: no other one in the range contains it. -/
def LargestIn (a b : Addr) (n : Network) : Prop :=
  BareNetwork n ∧ InRangeOf a b n ∧ ∀ m, BareNetwork m → InRangeOf a b m → Inside n m → m = n

/-- A range of IPv4 addresses, or one of IPv6 addresses without the IPv4-mapped ones. -/
def OneFamily (a b : Addr) : Prop := (IsV4 a ∧ IsV4 b) ∨ ∀ x, value a ≤ value x → value x ≤ value b → ¬ IsV4 x

/-! ## Text -/

/-- `s` without the white space at the end is `t`. -/
def EndTrimmed (s t : Bytes) : Prop := (∃ ws, s = t ++ ws ∧ ∀ c ∈ ws, White c) ∧ ∀ c, t.getLast? = some c → ¬ White c

/-- `s` without the white space on both ends is `t`. -/
def BothTrimmed (s t : Bytes) : Prop := Trimmed t ∧ ∃ w1 w2, s = w1 ++ t ++ w2 ∧ (∀ c ∈ w1, White c) ∧ ∀ c ∈ w2, White c

/-- A line of an object: a key, a colon, and a value, with white space around them; without a colon the value is empty. -/
def Attribute (line : Bytes) (x : Bytes × Bytes) : Prop :=
  ∃ k v, 58 ∉ k ∧ (line = k ++ 58 :: v ∨ (line = k ∧ v = [])) ∧ BothTrimmed k x.1 ∧ BothTrimmed v x.2

/-- The lines of an object. -/
def Attributes (block : List Bytes) (attrs : List (Bytes × Bytes)) : Prop := List.Forall₂ Attribute block attrs

/-- The value of the last attribute with the key. -/
def LastAttr (attrs : List (Bytes × Bytes)) (key : String) (v : Bytes) : Prop :=
  ∃ pre post, attrs = pre ++ (ascii key, v) :: post ∧ ∀ x ∈ post, x.1 ≠ ascii key

/-- The value of the first attribute with the key. -/
def FirstAttr (attrs : List (Bytes × Bytes)) (key : String) (v : Bytes) : Prop :=
  ∃ pre post, attrs = pre ++ (ascii key, v) :: post ∧ ∀ x ∈ pre, x.1 ≠ ascii key

/-- There is no attribute with the key. -/
def NoAttr (attrs : List (Bytes × Bytes)) (key : String) : Prop := ∀ x ∈ attrs, x.1 ≠ ascii key

/-- The first line of the object begins with this key. -/
def ObjectOf (key : String) (block : List Bytes) : Prop := ∃ rest more, block = (ascii key ++ 58 :: rest) :: more

/-- A small letter as a capital letter. -/
def upper (c : Byte) : Byte := if 97 ≤ c.toNat ∧ c.toNat ≤ 122 then c - 32 else c

/-- One of the digits 0 to 9. -/
def IsDigit (c : Byte) : Prop := ∃ d, digitOf c = some d ∧ d < 10

/-- The text is a whole number, which may have a sign and white space around it. -/
def WholeNumber (s : Bytes) (i : Int) : Prop :=
  ∃ u, BothTrimmed s u ∧ ((∃ k, Digits k u ∧ i = k) ∨ (∃ d k, u = ascii "+" ++ d ∧ Digits k d ∧ i = k) ∨
    ∃ d k, u = ascii "-" ++ d ∧ Digits k d ∧ i = -(k : Int))

/-! ## Objects about networks -/

/-- Networks which are taken from the registries: globally routable ones which are not the unspecified address, with a prefix
    of at least 7 bits for IPv4 and 10 bits for IPv6. -/
def Acceptable (e : WhoisEnv) (n : Network) : Prop :=
  e.isGlobal n = true ∧ ¬ (allZeroes n.first = true ∧ allZeroes n.last = true) ∧ (if IsV4 n.first then 96 + 7 else 10) ≤ n.pfx

/-- Names of objects that only say that the addresses are managed elsewhere. -/
def Historic (name : Bytes) : Prop :=
  ∃ rest, name = ascii "ERX-NETBLOCK" ++ rest ∨ (∃ r ∈ ["AFRINIC", "ARIN", "LACNIC", "RIPE"], name = ascii r ++ ascii "-CIDR-BLOCK" ++ rest) ∨
    (∃ d, IsDigit d ∧ name = ascii "IANA-NETBLOCK-" ++ d :: rest) ∨ name = ascii "NON-RIPE-NCC-MANAGED-ADDRESS-BLOCK" ++ rest ∨
    ∃ t d, 3 ≤ t.length ∧ (∀ c ∈ t, IsDigit c ∨ c = 45) ∧ IsDigit d ∧ name = ascii "STUB-" ++ t ++ ascii "SLASH" ++ d :: rest

/-- The text names a network: as usual, or with two or three octets of an IPv4 address only. -/
def NamesShort (s : Bytes) (n : Network) : Prop :=
  NamesNet s n ∨ ((∀ m, ¬ NamesNet s m) ∧ ∃ t u rest, s = t ++ 47 :: u ++ rest ∧ 47 ∉ t ∧ 47 ∉ u ∧ (rest = [] ∨ rest.head? = some 47) ∧
    ((t.count 46 = 1 ∧ NamesNet (t ++ ascii ".0.0/" ++ u) n) ∨ (t.count 46 = 2 ∧ NamesNet (t ++ ascii ".0/" ++ u) n)))

/-- The text names the addresses from `a` to `b`: two addresses with "-" between them, or a network. -/
def NamesRange (s : Bytes) (a b : Addr) : Prop :=
  (∃ t u t' u', s = t ++ 45 :: u ∧ 45 ∉ t ∧ EndTrimmed t t' ∧ BothTrimmed u u' ∧ Denotes t' a ∧ Denotes u' b) ∨
  (45 ∉ s ∧ ∃ t n, EndTrimmed s t ∧ NamesShort t n ∧ a = n.first ∧ b = n.last)

/-- The country that a value stands for: "UK" is "GB", "YU" and "ZZ" are no countries, and the others have to be known. -/
def KnownCountry (e : WhoisEnv) (v : Bytes) (cc : CStr) : Prop :=
  v.map upper ≠ ascii "YU" ∧ v.map upper ≠ ascii "ZZ" ∧ cc = (if v.map upper = ascii "UK" then ascii "GB" else v.map upper) ∧
    cc ∈ e.countries

/-- The first country of an object, if it has one. -/
def FirstCountry (e : WhoisEnv) (attrs : List (Bytes × Bytes)) (c : Option CStr) : Prop :=
  (∃ pre v post cc, attrs = pre ++ (ascii "country", v) :: post ∧ KnownCountry e v cc ∧ c = some cc ∧
    ∀ x ∈ pre, x.1 = ascii "country" → ∀ cc', ¬ KnownCountry e x.2 cc') ∨
  ((∀ x ∈ attrs, x.1 = ascii "country" → ∀ cc, ¬ KnownCountry e x.2 cc) ∧ c = none)

/-- The network is one of those that an object is about: the one of "inet6num", otherwise the largest ones in the range of
    "inetnum". -/
def AboutNetwork (attrs : List (Bytes × Bytes)) (n : Network) : Prop :=
  (∃ v, LastAttr attrs "inet6num" v ∧ NamesNet v n) ∨
  (NoAttr attrs "inet6num" ∧ ∃ v a b, LastAttr attrs "inetnum" v ∧ NamesRange v a b ∧ LargestIn a b n)

/-- The object registers the network with this country. -/
def Registers (e : WhoisEnv) (block : List Bytes) (n : Network) (c : Option CStr) : Prop :=
  (ObjectOf "inetnum" block ∨ ObjectOf "inet6num" block) ∧ ∃ attrs, Attributes block attrs ∧
    (∀ v, (ascii "netname", v) ∈ attrs → ¬ Historic v) ∧ (∀ v, (ascii "inetnum", v) ∈ attrs → ∃ a b, NamesRange v a b) ∧
    AboutNetwork attrs n ∧ Acceptable e n ∧ FirstCountry e attrs c

/-- An object that stops the import of its source: an IPv6 network that is none, a range whose ends are in the wrong order or
    of different families, or an incomplete IPv4 address without a prefix length. -/
def FaultyNetwork (block : List Bytes) : Prop :=
  (ObjectOf "inetnum" block ∨ ObjectOf "inet6num" block) ∧ ∃ attrs, Attributes block attrs ∧
    ((∃ v, (ascii "inet6num", v) ∈ attrs ∧ ∀ n, ¬ NamesNet v n) ∨
      ∃ v, (ascii "inetnum", v) ∈ attrs ∧
        ((∃ a b, NamesRange v a b ∧ (value b < value a ∨ ¬ (IsV4 a ↔ IsV4 b))) ∨
          (45 ∉ v ∧ ∃ t, EndTrimmed v t ∧ 47 ∉ t ∧ (t.count 46 = 1 ∨ t.count 46 = 2))))

/-- No range of IPv6 addresses reaches into the IPv4-mapped ones. -/
def RangesSeparate (block : List Bytes) : Prop :=
  ∀ attrs, Attributes block attrs → ∀ v a b, (ascii "inetnum", v) ∈ attrs → NamesRange v a b → value a ≤ value b → (IsV4 a ↔ IsV4 b) → OneFamily a b

/-! ## Objects about autonomous systems -/

/-- The value of "aut-num" begins with "AS" and the digits `d`. -/
def AsnText (v d : Bytes) : Prop :=
  ∃ p rest, (p = ascii "AS" ∨ p = ascii "as") ∧ v = p ++ d ++ rest ∧ d ≠ [] ∧ (∀ c ∈ d, IsDigit c) ∧ ∀ c, rest.head? = some c → ¬ IsDigit c

/-- The digits of the AS number of an object. -/
def AsDigits (attrs : List (Bytes × Bytes)) (d : Bytes) : Prop :=
  ∃ pre v post, attrs = pre ++ (ascii "aut-num", v) :: post ∧ AsnText v d ∧ ∀ x ∈ post, x.1 = ascii "aut-num" → ∀ d', ¬ AsnText x.2 d'

/-- The object says that the AS has a description but no organisation; its handle is made up. -/
def Describes (block : List Bytes) (handle name : Bytes) : Prop :=
  ObjectOf "aut-num" block ∧ ∃ attrs d, Attributes block attrs ∧ AsDigits attrs d ∧ NoAttr attrs "org" ∧ FirstAttr attrs "descr" name ∧
    handle = ascii "LIBLOC-" ++ d ++ ascii "-ORGHANDLE"

/-- The object says that the AS belongs to the organisation. -/
def OwnedBy (block : List Bytes) (k : Nat) (handle : Bytes) : Prop :=
  ObjectOf "aut-num" block ∧ ∃ attrs d, Attributes block attrs ∧ AsDigits attrs d ∧ Digits k d ∧
    ((∃ v, LastAttr attrs "org" v ∧ handle = v.map upper) ∨ ∃ name, Describes block handle name)

/-- The object says the name of the organisation. -/
def NamesOrg (block : List Bytes) (handle name : Bytes) : Prop :=
  ObjectOf "organisation" block ∧ ∃ attrs v, Attributes block attrs ∧ LastAttr attrs "organisation" v ∧ handle = v.map upper ∧
    LastAttr attrs "org-name" name

/-- An object that stops the import of its source: an AS number of more than 31 bits, or an organisation without a name. -/
def FaultyOther (block : List Bytes) : Prop :=
  (∃ k handle, OwnedBy block k handle ∧ 2 ^ 31 ≤ k) ∨
  (ObjectOf "organisation" block ∧ ∃ attrs, Attributes block attrs ∧ NoAttr attrs "org-name")

/-- A line of the list of ARIN names the ASes from the first to the last number, except for reserved numbers. -/
def ArinNames (l : ArinLine) (k : Nat) (name : CStr) : Prop :=
  l.status = ascii "Full Registry Services" ∧ name = l.name ∧ ∃ i j : Int, WholeNumber l.first i ∧ WholeNumber l.last j ∧ i ≤ k ∧ k ≤ j ∧
    ((1 ≤ k ∧ k ≤ 23455) ∨ (23457 ≤ k ∧ k ≤ 64495) ∨ (131072 ≤ k ∧ k ≤ 4199999999))

/-- A line of the list of ARIN that stops the import: a number that is none. -/
def FaultyArin (l : ArinLine) : Prop :=
  l.status = ascii "Full Registry Services" ∧ ((∀ i, ¬ WholeNumber l.first i) ∨ ∀ i, ¬ WholeNumber l.last i)

/-! ## Statistics -/

/-- A line of statistics: registry, country, type, address, number, date, status, and possibly more, with "|" in between. -/
def StatText (line cc type address number status : Bytes) : Prop :=
  ∃ registry date more, line = registry ++ 124 :: cc ++ 124 :: type ++ 124 :: address ++ 124 :: number ++ 124 :: date ++ 124 :: status ++ more ∧
    124 ∉ registry ∧ 124 ∉ cc ∧ 124 ∉ type ∧ 124 ∉ address ∧ 124 ∉ number ∧ 124 ∉ date ∧ 124 ∉ status ∧
    (more = [] ∨ ∃ organisation, more = 124 :: organisation ∧ 124 ∉ organisation)

/-- The line is about addresses in a known country which are in use; the version of the file and comments do not count. -/
def StatAbout (e : WhoisEnv) (line cc type address : Bytes) (i : Int) : Prop :=
  line.head? ≠ some 50 ∧ line.head? ≠ some 35 ∧ cc ≠ [] ∧ cc ≠ ascii "*" ∧ cc ∈ e.countries ∧
    (type = ascii "ipv4" ∨ type = ascii "ipv6") ∧ ∃ number status, StatText line cc type address number status ∧
      (status = ascii "assigned" ∨ status = ascii "allocated") ∧ WholeNumber number i

/-- The line gives the network a country.  For IPv6 the number is the length of the prefix; for IPv4 it is the number of
    addresses, and the network has as many addresses, or else less than that and more than half of that. -/
def StatRow (e : WhoisEnv) (line : Bytes) (n : Network) (cc : CStr) : Prop :=
  ∃ type address i a m p, StatAbout e line cc type address i ∧ Denotes address a ∧ LargestPrefix address m ∧ p ≤ m ∧
    (if type = ascii "ipv4" then ∃ k, p + k = 32 ∧ (2 : Int) ^ k ≤ i ∧ i < (2 : Int) ^ (k + 1) else i = p) ∧ newNetwork a p = .ok n ∧ Acceptable e n

/-- A line that stops the import of its source: IPv4 addresses whose number is not positive. -/
def FaultyStat (e : WhoisEnv) (line : Bytes) : Prop := ∃ cc address i, StatAbout e line cc (ascii "ipv4") address i ∧ i ≤ 0

/-! ## Sources -/

/-- A part of a file. -/
inductive Part
  | block (ts : List Bytes)
  | line (s : Bytes)
  | arin (l : ArinLine)

/-- The parts of the files of a source, in order. -/
inductive PartsOf : List WhoisFeed → List Part → Prop
  | nil : PartsOf [] []
  | standard {file : Bytes} {lines : List Bytes} {bs : List (List Bytes)} {feeds : List WhoisFeed} {ps : List Part} (hl : IsLines file lines)
      (hb : InBlocks lines bs) (hr : PartsOf feeds ps) : PartsOf (.standard file :: feeds) (bs.map .block ++ ps)
  | extended {file : Bytes} {lines ls : List Bytes} {feeds : List WhoisFeed} {ps : List Part} (hl : IsLines file lines)
      (ht : List.Forall₂ EndTrimmed lines ls) (hr : PartsOf feeds ps) : PartsOf (.extended file :: feeds) (ls.map .line ++ ps)
  | arin {lines : List ArinLine} {feeds : List WhoisFeed} {ps : List Part} (hr : PartsOf feeds ps) :
      PartsOf (.arin lines :: feeds) (lines.map .arin ++ ps)

/-- What a relation for blocks says about parts. -/
def InBlock {κ β : Type} (R : List Bytes → κ → β → Prop) (p : Part) (k : κ) (v : β) : Prop := ∃ ts, p = .block ts ∧ R ts k v

/-- What a relation for lines says about parts. -/
def InLine {κ β : Type} (R : Bytes → κ → β → Prop) (p : Part) (k : κ) (v : β) : Prop := ∃ s, p = .line s ∧ R s k v

/-- What a relation for the list of ARIN says about parts. -/
def InArin {κ β : Type} (R : ArinLine → κ → β → Prop) (p : Part) (k : κ) (v : β) : Prop := ∃ l, p = .arin l ∧ R l k v

/-- The value that the last part with one says. -/
def LastSays {α κ β : Type} (R : α → κ → β → Prop) (parts : List α) (k : κ) (v : β) : Prop :=
  ∃ pre x post, parts = pre ++ x :: post ∧ R x k v ∧ ∀ y ∈ post, ∀ v', ¬ R y k v'

/-- The value that the first part with one says. -/
def FirstSays {α κ β : Type} (R : α → κ → β → Prop) (parts : List α) (k : κ) (v : β) : Prop :=
  ∃ pre x post, parts = pre ++ x :: post ∧ R x k v ∧ ∀ y ∈ pre, ∀ v', ¬ R y k v'

/-- No part says anything. -/
def NoneSays {α κ β : Type} (R : α → κ → β → Prop) (parts : List α) (k : κ) : Prop := ∀ x ∈ parts, ∀ v, ¬ R x k v

/-- A part stops the import of its source. -/
def FaultyPart (e : WhoisEnv) : Part → Prop
  | .block ts => FaultyNetwork ts ∨ FaultyOther ts
  | .line s => FaultyStat e s
  | .arin l => FaultyArin l

/-- What the objects of a source register: the last object about a network counts. -/
def Registered (e : WhoisEnv) (parts : List Part) : Network → Option CStr → Prop := LastSays (InBlock (Registers e)) parts

/-- The entries from other places: the last line of the statistics counts, and otherwise the entries of other sources. -/
def Given (e : WhoisEnv) (source : CStr) (parts : List Part) (t : List (Network × Option CStr × CStr)) (n : Network) (c : Option CStr) : Prop :=
  (∃ cc, LastSays (InLine (StatRow e)) parts n cc ∧ c = some cc) ∨
  (NoneSays (InLine (StatRow e)) parts n ∧ ∃ s, (n, c, s) ∈ t ∧ s ≠ source)

/-- The name of an organisation: the last object about it counts; made-up ones have the first description. -/
def OrgName (parts : List Part) (handle name : Bytes) : Prop :=
  LastSays (InBlock NamesOrg) parts handle name ∨ (NoneSays (InBlock NamesOrg) parts handle ∧ FirstSays (InBlock Describes) parts handle name)

/-- The name of an AS according to the objects of a source. -/
def AsName (parts : List Part) (k : Nat) (name : CStr) : Prop :=
  ∃ handle, LastSays (InBlock OwnedBy) parts k handle ∧ OrgName parts handle name

/-- The name of an AS afterwards: that of the objects; otherwise that of another source, or else of the list of ARIN. -/
def NameAfter (source : CStr) (parts : List Part) (t : List (Nat × CStr × CStr)) (k : Nat) (name : CStr) : Prop :=
  AsName parts k name ∨ ((∀ name', ¬ AsName parts k name') ∧
    ((∃ s, (k, name, s) ∈ t ∧ s ≠ source) ∨ ((∀ name' s, (k, name', s) ∈ t → s = source) ∧ FirstSays (InArin ArinNames) parts k name)))

/-- The objects and lines of a source are not about IPv6 networks with IPv4-mapped addresses. -/
def Separate (e : WhoisEnv) (parts : List Part) : Prop :=
  (∀ ts, .block ts ∈ parts → RangesSeparate ts) ∧
  (∀ p ∈ parts, ∀ n c, InBlock (Registers e) p n c → InetValue n) ∧ ∀ p ∈ parts, ∀ n cc, InLine (StatRow e) p n cc → InetValue n

/-- What is known about networks once a source has been processed: the other entries, and what the objects of the source
    register in addition. -/
def Known (e : WhoisEnv) (source : CStr) (parts : List Part) (t : List (Network × Option CStr × CStr)) (n : Network) (c : Option CStr) : Prop :=
  Given e source parts t n c ∨ (Registered e parts n c ∧ ∀ c', ¬ Given e source parts t n c')

/-- An entry without a country, from another place or among the largest that the objects register. -/
def Unnamed (e : WhoisEnv) (source : CStr) (parts : List Part) (t : List (Network × Option CStr × CStr)) (n : Network) : Prop :=
  Given e source parts t n none ∨ (Registered e parts n none ∧ ∀ m c, Registered e parts m c → m.family = n.family → n.pfx ≤ m.pfx)

/-- The sources are processed one after another, and none of them stops with an exception. -/
inductive Processed (e : WhoisEnv) : List (CStr × List WhoisFeed) → WhoisTables → WhoisTables → Prop
  | nil {t : WhoisTables} : Processed e [] t t
  | cons {source : CStr} {feeds : List WhoisFeed} {rest : List (CStr × List WhoisFeed)} {t t1 t' : WhoisTables}
      (h : processSource e source feeds t = .ret t1) (hr : Processed e rest t1 t') : Processed e ((source, feeds) :: rest) t t'

end Loc.Spec
