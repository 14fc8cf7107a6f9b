import Verif.Model.Dump
import Verif.Spec.Formats
import Verif.Spec.Import
import Verif.Spec.Enum
import Batteries.Data.List.Basic
/-
What files in blocks, dumps and override files mean.
-/
namespace Loc.Spec
open Loc

/-- The bytes of a text in ASCII. -/
def ascii (s : String) : Bytes := s.toList.map fun c => BitVec.ofNat 8 c.toNat

/-- Tab, newline, vertical tab, form feed, carriage return, the four separators of ASCII, and space. -/
def White (c : Byte) : Prop := c ∈ [(9 : Byte), 10, 11, 12, 13, 28, 29, 30, 31, 32]

instance (c : Byte) : Decidable (White c) := inferInstanceAs (Decidable (_ ∈ _))

/-- White space on neither end. -/
def Trimmed (s : Bytes) : Prop := (∀ c, s.head? = some c → ¬ White c) ∧ ∀ c, s.getLast? = some c → ¬ White c

instance (s : Bytes) : Decidable (Trimmed s) :=
  decidable_of_iff (s.head?.all (fun c => ¬ White c) = true ∧ s.getLast?.all (fun c => ¬ White c) = true) (by
    unfold Trimmed
    cases s.head? <;> cases s.getLast? <;> simp)

/-! ## Blocks -/

/-- A line which is a comment: it begins with "#" or "%", or with white space and "#". -/
def Remark (line : Bytes) : Prop :=
  line.head? = some 35 ∨ line.head? = some 37 ∨ ∃ ws rest, line = ws ++ 35 :: rest ∧ ∀ c ∈ ws, White c

/-- A line of white space. -/
def Blank (line : Bytes) : Prop := ∀ c ∈ line, White c

/-- A line with the content `t`, which white space and a comment may follow. -/
def Content (line t : Bytes) : Prop :=
  t ≠ [] ∧ line.head? ≠ some 35 ∧ line.head? ≠ some 37 ∧ 35 ∉ t ∧ (∀ c, t.getLast? = some c → ¬ White c) ∧
    ∃ ws rest, line = t ++ ws ++ rest ∧ (∀ c ∈ ws, White c) ∧ (rest = [] ∨ rest.head? = some 35)

/-- Lines with the contents `ts`, and comments. -/
inductive Body : List Bytes → List Bytes → Prop
  | nil : Body [] []
  | remark {line : Bytes} {lines ts : List Bytes} (h : Remark line) (hb : Body lines ts) : Body (line :: lines) ts
  | content {line t : Bytes} {lines ts : List Bytes} (h : Content line t) (hb : Body lines ts) : Body (line :: lines) (t :: ts)

/-- The lines consist of these blocks: groups of lines with content, separated by blank lines; comments do not matter. -/
inductive InBlocks : List Bytes → List (List Bytes) → Prop
  | nil : InBlocks [] []
  | remark {line : Bytes} {lines : List Bytes} {bs : List (List Bytes)} (h : Remark line) (hb : InBlocks lines bs) : InBlocks (line :: lines) bs
  | blank {line : Bytes} {lines : List Bytes} {bs : List (List Bytes)} (h : Blank line) (hb : InBlocks lines bs) : InBlocks (line :: lines) bs
  | block {body rest ts : List Bytes} {bs : List (List Bytes)} (h : Body body ts) (hne : ts ≠ [])
      (hr : rest = [] ∨ ∃ line more, rest = line :: more ∧ Blank line) (hb : InBlocks rest bs) : InBlocks (body ++ rest) (ts :: bs)

/-- The lines of a file: each but the last ends with a newline, and there is no other newline in it. -/
inductive IsLines : Bytes → List Bytes → Prop
  | nil : IsLines [] []
  | last {l : Bytes} (h : 10 ∉ l) (hne : l ≠ []) : IsLines l [l]
  | cons {l rest : Bytes} {ls : List Bytes} (h : 10 ∉ l) (hr : IsLines rest ls) : IsLines (l ++ 10 :: rest) ((l ++ [10]) :: ls)

/-- A line of a block: a key, a colon, and a value, around which there may be white space. -/
def KeyLine (line key value : Bytes) : Prop :=
  58 ∉ key ∧ Trimmed value ∧ ∃ w1 w2, line = key ++ 58 :: (w1 ++ value ++ w2) ∧ (∀ c ∈ w1, White c) ∧ ∀ c ∈ w2, White c

/-- What is stored under a key. -/
def valueAt (d : BlockData) (key : String) : Option BlockValue := d.lookup (ascii key)

/-- The value of the last line with the key. -/
def LastValue (ts : List Bytes) (key value : Bytes) : Prop :=
  ∃ pre line post, ts = pre ++ line :: post ∧ KeyLine line key value ∧ ∀ l ∈ post, ∀ v, ¬ KeyLine l key v

/-- The values of all lines with the key, in order. -/
inductive AllValues (key : Bytes) : List Bytes → List Bytes → Prop
  | nil : AllValues key [] []
  | hit {line v : Bytes} {ts vs : List Bytes} (h : KeyLine line key v) (hr : AllValues key ts vs) : AllValues key (line :: ts) (v :: vs)
  | miss {line : Bytes} {ts vs : List Bytes} (h : ∀ v, ¬ KeyLine line key v) (hr : AllValues key ts vs) : AllValues key (line :: ts) vs

/-- What is read from a block: all lines have a key; the first key is the type of the block; under each key there is the
    value of the last line with this key, except for "network" in blocks of type "geofeed", where there are all values. -/
def MeansBlock (ts : List Bytes) (b : Option Bytes × BlockData) : Prop :=
  (∀ line ∈ ts, 58 ∈ line) ∧
  (∃ line rest type v, ts = line :: rest ∧ KeyLine line type v ∧ b.1 = some type) ∧
  (∀ key, ¬ (b.1 = some (ascii "geofeed") ∧ key = ascii "network") →
    ∀ v, b.2.lookup key = some v ↔ ∃ s, v = .text s ∧ LastValue ts key s) ∧
  (b.1 = some (ascii "geofeed") → ∃ l, AllValues (ascii "network") ts l ∧
    b.2.lookup (ascii "network") = if l = [] then none else some (.texts l))

/-- What is read from a file. -/
def Reads (file : Bytes) (blocks : List (Option Bytes × BlockData)) : Prop :=
  ∃ lines bs, IsLines file lines ∧ InBlocks lines bs ∧ List.Forall₂ MeansBlock bs blocks

/-- What is read from several files. -/
def ReadsAll (files : List Bytes) (blocks : List (Option Bytes × BlockData)) : Prop :=
  ∃ bss, List.Forall₂ Reads files bss ∧ blocks = bss.flatten

/-! ## Dumps -/

/-- The block describes the AS. -/
def DescribesAs (b : Option Bytes × BlockData) (number : Nat) (name : CStr) : Prop :=
  b.1 = some (ascii "aut-num") ∧ (∃ s, valueAt b.2 "aut-num" = some (.text (ascii "AS" ++ s)) ∧ Numeral 10 number s) ∧
  valueAt b.2 "name" = some (.text name)

/-- The block describes the network: its text, country, AS and four flags. -/
def DescribesNet (b : Option Bytes × BlockData) (n : Network) : Prop :=
  b.1 = some (ascii "net") ∧ (∃ s, valueAt b.2 "net" = some (.text s) ∧ Shows s n) ∧
  valueAt b.2 "country" = (if (props n).1 = [] then none else some (.text (props n).1)) ∧
  (if n.asn = 0 then valueAt b.2 "aut-num" = none else ∃ s, valueAt b.2 "aut-num" = some (.text s) ∧ Numeral 10 n.asn.toNat s) ∧
  valueAt b.2 "is-anonymous-proxy" = (if n.flags.getLsbD 0 then some (.text (ascii "yes")) else none) ∧
  valueAt b.2 "is-satellite-provider" = (if n.flags.getLsbD 1 then some (.text (ascii "yes")) else none) ∧
  valueAt b.2 "is-anycast" = (if n.flags.getLsbD 2 then some (.text (ascii "yes")) else none) ∧
  valueAt b.2 "drop" = (if n.flags.getLsbD 3 then some (.text (ascii "yes")) else none)

/-- A name that survives a dump: without newline and "#", without white space on either end. -/
def TidyName (s : CStr) : Prop := 10 ∉ s ∧ 35 ∉ s ∧ Trimmed s

instance (s : CStr) : Decidable (TidyName s) := inferInstanceAs (Decidable (_ ∧ _ ∧ _))

/-! ## Overrides -/

/-- The text names the network: an address in it, and the length of its prefix unless it is a single address. -/
def NamesNet (s : Bytes) (n : Network) : Prop :=
  (∃ t d a p m, s = t ++ 47 :: d ∧ Denotes t a ∧ LargestPrefix t m ∧ Digits p d ∧ p ≤ m ∧ newNetwork a p = .ok n) ∨
  (∃ a m, Denotes s a ∧ LargestPrefix s m ∧ newNetwork a m = .ok n)

/-- The value under a key as yes or no. -/
def SaysBool (d : BlockData) (key : String) (v : Option Bool) : Prop :=
  (v = some true ↔ ∃ s, valueAt d key = some (.text s) ∧ s.map lower ∈ [ascii "yes", ascii "1"]) ∧
  (v = some false ↔ ∃ s, valueAt d key = some (.text s) ∧ s.map lower ∈ [ascii "no", ascii "0"])

/-- The block says this about country and flags. -/
def SaysMarks (d : BlockData) (m : Marks) : Prop :=
  (∀ s, m.country = some s ↔ valueAt d "country" = some (.text s)) ∧
  SaysBool d "is-anonymous-proxy" m.proxy ∧ SaysBool d "is-satellite-provider" m.satellite ∧ SaysBool d "is-anycast" m.anycast ∧
  SaysBool d "drop" m.drop

/-- The block says this name. -/
def SaysName (d : BlockData) (name : Option CStr) : Prop := ∀ s, name = some s ↔ valueAt d "name" = some (.text s)

/-- The block is about the network. -/
def AboutNet (n : Network) (b : Option Bytes × BlockData) : Prop :=
  b.1 = some (ascii "net") ∧ ∃ s, valueAt b.2 "net" = some (.text s) ∧ NamesNet s n

/-- The block is about the AS. -/
def AboutAs (number : Nat) (b : Option Bytes × BlockData) : Prop :=
  b.1 = some (ascii "aut-num") ∧ ∃ s, valueAt b.2 "aut-num" = some (.text (ascii "AS" ++ s)) ∧ Digits number s

/-- `b` is the first block with the property. -/
def FirstBlock (P : Option Bytes × BlockData → Prop) (blocks : List (Option Bytes × BlockData)) (b : Option Bytes × BlockData) : Prop :=
  ∃ pre post, blocks = pre ++ b :: post ∧ P b ∧ ∀ x ∈ pre, ¬ P x

/-- Country and flags of a network as an override says them. -/
def MarksFrom (n : Network) (m : Marks) : Prop :=
  m.country = (if (props n).1 = [] then none else some (props n).1) ∧
  m.proxy = (if n.flags.getLsbD 0 then some true else none) ∧ m.satellite = (if n.flags.getLsbD 1 then some true else none) ∧
  m.anycast = (if n.flags.getLsbD 2 then some true else none) ∧ m.drop = (if n.flags.getLsbD 3 then some true else none)

end Loc.Spec
