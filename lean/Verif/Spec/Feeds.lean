import Verif.Spec.Whois
import Verif.Model.Feeds
/-
Specification vocabulary for feeds of third parties (`location-importer update-feeds`).
-/
namespace Loc.Spec

/-- The text names the network by its first address. -/
def NamesExactly (s : Bytes) (n : Network) : Prop := NamesNet s n ∧ Denotes (s.takeWhile (· ≠ 47)) n.first

/-! ## JSON -/

/-- An object with this value under this key (the last one counts). -/
def JsonAt (j : Json) (key : String) (v : Json) : Prop :=
  ∃ pre post, j = .object (pre ++ (ascii key, v) :: post) ∧ ∀ x ∈ post, x.1 ≠ ascii key

/-- An object without this key. -/
def JsonLacks (j : Json) (key : String) : Prop := ∃ o, j = .object o ∧ ∀ x ∈ o, x.1 ≠ ascii key

/-- null, false, zero, or empty. -/
def JsonVoid (v : Json) : Prop := v = .null ∨ v = .bool false ∨ v = .number 0 ∨ v = .text [] ∨ v = .list [] ∨ v = .object []

/-- No value under this key, or a void one. -/
def JsonBlank (j : Json) (key : String) : Prop := JsonLacks j key ∨ ∃ v, JsonAt j key v ∧ JsonVoid v

/-! ## AWS -/

/-- The list under this key; without the key it is empty. -/
def JsonList (j : Json) (key : String) (l : List Json) : Prop := JsonAt j key (.list l) ∨ (JsonLacks j key ∧ l = [])

/-- The entries of the feed. -/
def AwsEntries (feed : Json) (l : List Json) : Prop :=
  ∃ l6 l4, JsonList feed "ipv6_prefixes" l6 ∧ JsonList feed "prefixes" l4 ∧ l = l6 ++ l4

/-- The network of an entry, as text. -/
def AwsNetwork (p : Json) (s : Bytes) : Prop :=
  (s ≠ [] ∧ JsonAt p "ipv6_prefix" (.text s)) ∨ (JsonBlank p "ipv6_prefix" ∧ JsonAt p "ip_prefix" (.text s))

/-- Countries and the regions of AWS in them.  (`AP`: somewhere in Asia.  In fact, ap-southeast-3 is in Indonesia.) -/
def regionsIn : List (String × List String) :=
  [("AE", ["me-central-1"]), ("AP", ["ap-southeast-6", "ap-southeast-7"]), ("AU", ["ap-southeast-2", "ap-southeast-4"]),
    ("BH", ["me-south-1"]), ("BR", ["sa-east-1"]), ("CA", ["ca-central-1", "ca-west-1"]), ("CH", ["eu-central-2"]),
    ("DE", ["eu-central-1", "eusc-de-east-1"]), ("ES", ["eu-south-2"]), ("FR", ["eu-west-3"]), ("GB", ["eu-west-2"]),
    ("HK", ["ap-east-1"]), ("IE", ["eu-west-1"]), ("IL", ["il-central-1"]), ("IN", ["ap-south-1", "ap-south-2"]),
    ("IT", ["eu-south-1"]), ("JP", ["ap-northeast-1", "ap-northeast-3"]), ("KR", ["ap-northeast-2"]),
    ("MX", ["mx-central-1"]), ("MY", ["ap-southeast-3", "ap-southeast-5"]), ("SE", ["eu-north-1"]),
    ("SG", ["ap-southeast-1"]), ("ZA", ["af-south-1"])]

/-- Country of a region, and whether it is everywhere. -/
def RegionSays (r : Bytes) (cc : Option CStr) (anycast : Bool) : Prop :=
  (∃ x ∈ regionsIn, ∃ y ∈ x.2, r = ascii y ∧ cc = some (ascii x.1) ∧ anycast = false) ∨
  (r = ascii "GLOBAL" ∧ cc = none ∧ anycast = true) ∨
  (ascii "us-" <+: r ∧ cc = some (ascii "US") ∧ anycast = false) ∨
  (ascii "cn-" <+: r ∧ cc = some (ascii "CN") ∧ anycast = false)

/-- The entry stands for this row. -/
def AwsSays (e : FeedEnv) (p : Json) (n : Network) (cc : Option CStr) (anycast : Bool) : Prop :=
  ∃ s r, AwsNetwork p s ∧ NamesExactly s n ∧ Acceptable e.whois n ∧ JsonAt p "region" (.text r) ∧ RegionSays r cc anycast

/-- An entry that can be processed: it names a network, and if that is acceptable, also a region. -/
def AwsSane (e : FeedEnv) (p : Json) : Prop :=
  ∃ s n, AwsNetwork p s ∧ NamesExactly s n ∧ (Acceptable e.whois n → ∃ r, JsonAt p "region" (.text r))

/-! ## Spamhaus -/

/-- The part of a line in front of the comment. -/
def BeforeComment (line s : Bytes) : Prop := 59 ∉ s ∧ (line = s ∨ ∃ comment, line = s ++ 59 :: comment)

/-- The line lists this network. -/
def DropSays (e : FeedEnv) (line : Bytes) (n : Network) : Prop :=
  ∃ s s', BeforeComment line s ∧ BothTrimmed s s' ∧ NamesExactly s' n ∧ Acceptable e.whois n

/-- The line lists this AS. -/
def AsndropSays (e : FeedEnv) (line : Bytes) (k : Nat) : Prop :=
  ∃ j, e.json line = some j ∧ ¬ JsonAt j "type" (.text (ascii "metadata")) ∧ JsonAt j "asn" (.number k) ∧
    ((1 ≤ k ∧ k ≤ 23455) ∨ (23457 ≤ k ∧ k ≤ 64495) ∨ (131072 ≤ k ∧ k ≤ 4199999999))

/-- A line that can be processed: if it is JSON, it is an object, and an AS is a number. -/
def AsndropSane (e : FeedEnv) (line : Bytes) : Prop :=
  ∀ j, e.json line = some j → (∃ o, j = .object o) ∧
    (¬ JsonAt j "type" (.text (ascii "metadata")) → JsonBlank j "asn" ∨ ∃ i, JsonAt j "asn" (.number i))

/-! ## All feeds -/

/-- The file can be processed. -/
def FeedReadable (e : FeedEnv) (kind : FeedKind) (f : Bytes) : Prop :=
  match kind with
  | .aws => ∃ feed l, e.json f = some feed ∧ AwsEntries feed l ∧ ∀ p ∈ l, AwsSane e p
  | .drop => ∃ lines, IsLines f lines ∧ (∃ l ∈ lines, ∃ s, BeforeComment l s ∧ s ≠ []) ∧
      lines.Pairwise fun l l' => ∀ n, ¬ (DropSays e l n ∧ DropSays e l' n)
  | .asndrop => ∃ lines, IsLines f lines ∧ (∀ l ∈ lines, AsndropSane e l) ∧
      lines.Pairwise fun l l' => ∀ k, ¬ (AsndropSays e l k ∧ AsndropSays e l' k)

/-- The row that says that something is to be dropped. -/
def dropMarks : Marks := ⟨none, none, none, none, some true⟩

/-- The file has this network, with these properties; of several entries for the same network the first counts. -/
def FeedNetwork (e : FeedEnv) (kind : FeedKind) (f : Bytes) (n : Network) (m : Marks) : Prop :=
  match kind with
  | .aws => ∃ feed pre p post cc anycast, e.json f = some feed ∧ AwsEntries feed (pre ++ p :: post) ∧ AwsSays e p n cc anycast ∧
      (∀ q ∈ pre, ∀ c a, ¬ AwsSays e q n c a) ∧ m = ⟨cc, none, none, some anycast, none⟩
  | .drop => m = dropMarks ∧ ∃ lines, IsLines f lines ∧ ∃ l ∈ lines, DropSays e l n
  | .asndrop => False

/-- The file has this AS. -/
def FeedAutnum (e : FeedEnv) (kind : FeedKind) (f : Bytes) (k : Nat) (m : Marks) : Prop :=
  match kind with
  | .asndrop => m = dropMarks ∧ ∃ lines, IsLines f lines ∧ ∃ l ∈ lines, AsndropSays e l k
  | _ => False

/-- The feeds: the name under which their rows are stored, what kind of file it is, and where it is. -/
def theFeeds : List (CStr × FeedKind × CStr) :=
  [("AWS-IP-RANGES", .aws, "https://ip-ranges.amazonaws.com/ip-ranges.json"),
    ("SPAMHAUS-DROP", .drop, "https://www.spamhaus.org/drop/drop.txt"),
    ("SPAMHAUS-DROPV6", .drop, "https://www.spamhaus.org/drop/dropv6.txt"),
    ("SPAMHAUS-ASNDROP", .asndrop, "https://www.spamhaus.org/drop/asndrop.json")].map fun (x : String × FeedKind × String) => (ascii x.1, x.2.1, ascii x.2.2)

/-- The feed was asked for: without any names all of them are. -/
def FeedRequested (requested : List CStr) (name : CStr) : Prop := requested = [] ∨ name ∈ requested

/-- The file of the feed can be fetched and processed. -/
def FeedWorks (e : FeedEnv) (kind : FeedKind) (url : CStr) (f : Bytes) : Prop := e.retrieve url = some f ∧ FeedReadable e kind f

end Loc.Spec
