import Verif.Lemmas.Overrides
import Verif.Props.Networks
import Verif.Props.Enum
/-
C61: files in blocks; C62: reading a dump; C63: override files; C64: a dump as overrides.
-/
namespace Loc.Props
open Loc Loc.Spec

/-! ## C61 -/

/-- Whatever is in a file: it has lines, and the blocks that `iterate_over_blocks` returns are the groups of lines with
    content. -/
theorem blocks_exact (file : Bytes) : ∃ lines, IsLines file lines ∧ ∀ bs, iterBlocks [] (fileLines file) = bs ↔ InBlocks lines bs :=
  ⟨_, isLines_exists file, blocks_of_file (isLines_exists file)⟩

/-- Whatever is in a file: `read_blocks` either returns what the file means, or raises `ValueError`, and then a line with
    content has no colon. -/
theorem file_read (file : Bytes) : (∃ blocks, readFile file = .ret blocks ∧ Reads file blocks) ∨
    (readFile file = .exc .value ∧ ∃ lines bs, IsLines file lines ∧ InBlocks lines bs ∧ ∃ ts ∈ bs, ∃ line ∈ ts, 58 ∉ line) :=
  readFile_spec file

/-- A file has one meaning only: the same blocks in the same order, with the same type and the same value under each key. -/
theorem file_meaning_unique {file : Bytes} {as bs : List (Option Bytes × BlockData)} (ha : Reads file as) (hb : Reads file bs) :
    List.Forall₂ (fun a b => a.1 = b.1 ∧ ∀ key, a.2.lookup key = b.2.lookup key) as bs := reads_unique ha hb

deriving instance DecidableEq for Call

/-- "# x", "net: 10.0.0.0/8 # y", " # z", "net:1", empty line, "geofeed:a", "network: b ", "network:c" -/
def blocksFile : Bytes :=
  ascii "# x\nnet: 10.0.0.0/8 # y\n # z\nnet:1\n\ngeofeed:a\nnetwork: b \nnetwork:c"

example : readFile blocksFile = .ret
    [(some (ascii "net"), [(ascii "net", .text (ascii "1"))]),
     (some (ascii "geofeed"), [(ascii "geofeed", .text (ascii "a")), (ascii "network", .texts [ascii "b", ascii "c"])])] ∧
    readFile (ascii "net: 1\nx\n") = .exc .value := ⟨by decide +kernel, by decide +kernel⟩

/-! ## C62 -/

theorem dumpAses_ok : ∀ (l : List AS), (∀ a ∈ l, a.name ≠ none) →
    dumpAses l = .ok ((l.map fun a => (a.number.toNat, a.name.getD [])).flatMap fun a => dumpAs a.1 a.2)
  | [], _ => rfl
  | a :: l, h => by
    cases hn : a.name with
    | none => exact absurd hn (h a List.mem_cons_self)
    | some s =>
      rw [dumpAses, dumpAses_ok l fun b hb => h b (List.mem_cons_of_mem _ hb)]
      unfold pyAsName
      rw [hn]
      simp [hn]

/-- The text of a dump -/
theorem dump_text {K : Type} {ctz0 : Nat} (h0 : 8 ≤ ctz0) {key1 key2 : Option K} {ops : List (WOp K)} {e : WEnv K}
    {w : Writer K} {f : Bytes} (h : Written ctz0 key1 key2 ops e w f) {db : Db} (ho : dbOpen f = .ok db)
    (hd : ¬ TooDeep (· ∈ w.networks.networks)) (hv : ∀ n ∈ w.networks.networks, ¬ AroundV4 n) (generated : CStr) :
    ∃ (ases : List (Nat × CStr)) (N : Nat), (∀ fuel, N < fuel → handleDump fuel generated db =
        .ok (dumpHead generated (some (lastSet vendorCall ops)) (some (lastSet licenseCall ops)) (some (lastSet descriptionCall ops)) ++
          (ases.flatMap fun a => dumpAs a.1 a.2) ++ (w.networks.networks.map readBack).flatMap dumpNetwork)) ∧
      ases.Pairwise (fun a b => a.1 < b.1) ∧
      ∀ k name, (k, name) ∈ ases ↔ ∃ number given, k = number.toNat ∧ asesOf ops number = some given ∧
        name = given.getD [] := by
  obtain ⟨db1, o1, l, a1, a2, a3, -⟩ := as_enumeration h0 h
  rw [ho] at o1
  cases o1
  obtain ⟨db2, o2, m1, m2, m3, -⟩ := metadata_roundtrip h0 h
  rw [ho] at o2
  cases o2
  obtain ⟨db3, o3, hh⟩ := written_holds h0 h
  rw [ho] at o3
  cases o3
  have hnames : ∀ a ∈ l, ∃ given, asesOf ops a.number = some given ∧ a.name = some (given.getD []) := by
    rintro ⟨number, name⟩ ha
    obtain ⟨given, g1, g2⟩ := (a3 number name).mp ha
    exact ⟨given, g1, by rw [g2]; cases given <;> rfl⟩
  refine ⟨l.map fun a => (a.number.toNat, a.name.getD []), l.length + w.networks.networks.length, fun fuel hf => ?_, ?_, ?_⟩
  · obtain ⟨s, e1, -⟩ := enum_aux hh hd hv noFilter fuel (by omega)
    rw [List.filter_eq_self (p := matchNetwork noFilter) |>.mpr (fun m _ => rfl)] at e1
    unfold noFilter at e1
    unfold handleDump
    rw [m1, m3, m2]
    simp only
    rw [a1 fuel (by omega)]
    simp only
    rw [dumpAses_ok l (fun a ha hn => by
      obtain ⟨g, -, h2⟩ := hnames a ha
      rw [hn] at h2
      cases h2)]
    simp only
    rw [e1]
  · rw [List.pairwise_map]
    exact a2
  · intro k name
    rw [List.mem_map]
    constructor
    · rintro ⟨a, ha, he⟩
      obtain ⟨g, h1, h2⟩ := hnames a ha
      refine ⟨a.number, g, (congrArg Prod.fst he).symm, h1, ?_⟩
      have h3 : a.name.getD [] = name := congrArg Prod.snd he
      rw [← h3, h2]
      rfl
    · rintro ⟨number, g, rfl, h1, h2⟩
      refine ⟨⟨number, some name⟩, (a3 number (some name)).mpr ⟨g, h1, by rw [h2]; cases g <;> rfl⟩, rfl⟩

/-- The full claim: what `read_blocks` reads from a dump is, for each AS and each network of the database, a block that
    describes it, in ascending order, and nothing else. -/
def DumpReadsBack {K : Type} (ops : List (WOp K)) (w : Writer K) (generated : CStr) (db : Db) : Prop :=
  ∃ (text : Bytes) (N : Nat) (ases : List (Nat × CStr)) (nets : List Network) (bs1 bs2 : List (Option Bytes × BlockData)),
    (∀ fuel, N < fuel → handleDump fuel generated db = .ok text) ∧ readFile text = .ret (bs1 ++ bs2) ∧
    List.Forall₂ (fun b a => DescribesAs b a.1 a.2) bs1 ases ∧ List.Forall₂ DescribesNet bs2 nets ∧
    ases.Pairwise (fun a b => a.1 < b.1) ∧
    (∀ k name, (k, name) ∈ ases ↔ ∃ number given, k = number.toNat ∧ asesOf ops number = some given ∧
      name = given.getD []) ∧
    Ascending nets ∧ (∀ n ∈ w.networks.networks, ∃ m ∈ nets, ReadFrom n m) ∧ ∀ m ∈ nets, ∃ n ∈ w.networks.networks, ReadFrom n m

theorem forall2_map {α β : Type} {R : β → α → Prop} {f : α → β} : ∀ {l : List α}, (∀ a ∈ l, R (f a) a) → List.Forall₂ R (l.map f) l
  | [], _ => .nil
  | a :: _, h => .cons (h a List.mem_cons_self) (forall2_map fun b hb => h b (List.mem_cons_of_mem _ hb))

theorem stored_ok {db : Db} {t : Tree} (hh : Holds db t) : ∀ n ∈ t.networks.map readBack, Block n ∧ CountryOk n := by
  intro n hn
  obtain ⟨m, hm, rfl⟩ := List.mem_map.mp hn
  exact ⟨readBack_block ((mem_networks_wf hh.wf).mp hm).1, readBack_countryOk (hh.country m hm)⟩

/-- A dump reads back.  Missing: databases whose vendor or license contains a newline, or where the name of an AS contains
    a newline or "#" or white space on either end (where it does not hold: `dump_violated_name`, `dump_violated_vendor`), and
    databases that an enumeration does not return completely (see C18). -/
theorem dump_reads_back_partial {K : Type} {ctz0 : Nat} (h0 : 8 ≤ ctz0) {key1 key2 : Option K} {ops : List (WOp K)} {e : WEnv K}
    {w : Writer K} {f : Bytes} (h : Written ctz0 key1 key2 ops e w f) {db : Db} (ho : dbOpen f = .ok db)
    (hd : ¬ TooDeep (· ∈ w.networks.networks)) (hv : ∀ n ∈ w.networks.networks, ¬ AroundV4 n) {generated : CStr} (hg : 10 ∉ generated)
    (hvendor : 10 ∉ lastSet vendorCall ops) (hlicense : 10 ∉ lastSet licenseCall ops)
    (hnames : ∀ number s, asesOf ops number = some (some s) → TidyName s) : DumpReadsBack ops w generated db := by
  obtain ⟨ases, N, t1, t2, t3⟩ := dump_text h0 h ho hd hv generated
  obtain ⟨db', ho', hh⟩ := written_holds h0 h
  rw [ho] at ho'
  cases ho'
  have hok := stored_ok hh
  have hases : ∀ a ∈ ases, a.1 < 10 ^ 10 ∧ TidyName a.2 := by
    rintro ⟨k, name⟩ ha
    obtain ⟨number, given, rfl, h1, h2⟩ := (t3 _ _).mp ha
    refine ⟨by have := number.isLt; simp only; omega, ?_⟩
    cases given with
    | none => subst h2; show TidyName []; decide
    | some s => subst h2; exact hnames _ _ h1
  refine ⟨_, N, ases, w.networks.networks.map readBack, _, _, t1,
    read_dump hg (fun v hv => by cases hv; exact hvendor) (fun v hv => by cases hv; exact hlicense) hases hok, ?_, ?_, t2, t3, ?_, ?_, ?_⟩
  · exact forall2_map fun a ha => describes_as a.2 (hases a ha).1
  · exact forall2_map fun n hn => describes_net (hok n hn).1
  · unfold Ascending
    rw [List.pairwise_map]
    exact networks_ascending hh.wf.1
  · exact fun n hn => ⟨readBack n, List.mem_map_of_mem hn, readFrom_readBack n⟩
  · intro m hm
    obtain ⟨n, hn, rfl⟩ := List.mem_map.mp hm
    exact ⟨n, hn, readFrom_readBack n⟩

theorem demo_names : ∀ number s, asesOf demoOps number = some (some s) → TidyName s := by
  intro number s hs
  have hc : asesOf demoOps = fun k => if k = 204867 then some (some [76]) else if k = 64512 then some none else none := by
    funext k
    by_cases h1 : k = 204867
    · subst h1; rfl
    · by_cases h2 : k = 64512
      · subst h2; rfl
      · rw [if_neg h1, if_neg h2]
        have h1' : ¬ k = 204867#32 := h1
        have h2' : ¬ k = 64512#32 := h2
        simp [demoOps, asesOf, asStep, h1', h2']
  rw [hc] at hs
  simp only at hs
  by_cases h1 : number = 204867
  · rw [if_pos h1] at hs
    cases hs
    decide
  · rw [if_neg h1] at hs
    by_cases h2 : number = 64512
    · rw [if_pos h2] at hs; cases hs
    · rw [if_neg h2] at hs; cases hs

/-- The sample database meets the hypotheses. -/
example : ∃ w f db, Written 32 none none demoOps demoEnv w f ∧ dbOpen f = .ok db ∧
    DumpReadsBack demoOps w (ascii "Thu, 01 Jan 1970 00:00:00 GMT") db := by
  obtain ⟨w, f, db, h1, h2, -, h4, h5⟩ := demo_plain
  exact ⟨w, f, db, h1, h2, dump_reads_back_partial (by decide) h1 h2 h4 h5 (by decide) (by decide) (by decide) demo_names⟩

/-- AS 1 with the name "a#b" -/
def hashOps : List (WOp Unit) := [.addAs 1 (some [97, 35, 98])]

/-- AS 1 with the name "a"; the vendor is "v", newline, "w" -/
def newlineOps : List (WOp Unit) := [.vendor (some [118, 10, 119]), .addAs 1 (some [97])]

theorem hash_ok : ∀ op ∈ hashOps, OpOk 32 op := by
  intro op h
  simp only [hashOps, List.mem_cons, List.not_mem_nil, or_false] at h
  subst h
  intro x hx
  cases hx
  decide

theorem newline_ok : ∀ op ∈ newlineOps, OpOk 32 op := by
  intro op h
  simp only [newlineOps, List.mem_cons, List.not_mem_nil, or_false] at h
  rcases h with rfl | rfl
  · intro x hx
    cases hx
    decide
  · intro x hx
    cases hx
    decide

/-- Nothing is too deep, nothing is around the IPv4 addresses if there is no network. -/
theorem no_networks {l : List Network} (h : l = []) : ¬ TooDeep (· ∈ l) ∧ ∀ n ∈ l, ¬ AroundV4 n := by
  subst h
  refine ⟨fun hd => ?_, by simp⟩
  obtain ⟨n, hn, -⟩ := tooDeep_host (S := (· ∈ ([] : List Network))) (by simp) hd
  cases hn

/-- The dump of a database with one AS and without networks -/
theorem dump_one {ops : List (WOp Unit)} {w : Writer Unit} {f : Bytes} {db : Db} (h : Written 32 none none ops demoEnv w f)
    (ho : dbOpen f = .ok db) (hn : w.networks.networks = []) {s : CStr} (h1 : asesOf ops 1 = some (some s))
    (h2 : ∀ k, k ≠ 1 → asesOf ops k = none) (generated : CStr) : ∃ N, ∀ fuel, N < fuel → handleDump fuel generated db =
      .ok (dumpHead generated (some (lastSet vendorCall ops)) (some (lastSet licenseCall ops)) (some (lastSet descriptionCall ops)) ++ dumpAs 1 s) := by
  obtain ⟨ases, N, t1, t2, t3⟩ := dump_text (by decide) h ho (no_networks hn).1 (no_networks hn).2 generated
  have hmem : ∀ k name, (k, name) ∈ ases ↔ k = 1 ∧ name = s := by
    intro k name
    rw [t3]
    constructor
    · rintro ⟨number, given, rfl, e1, rfl⟩
      by_cases hk : number = 1
      · subst hk
        rw [h1] at e1
        cases e1
        exact ⟨rfl, rfl⟩
      · rw [h2 number hk] at e1
        cases e1
    · rintro ⟨rfl, rfl⟩
      exact ⟨1, some name, rfl, h1, rfl⟩
  have hases : ases = [(1, s)] := by
    cases ases with
    | nil => exact absurd ((hmem 1 s).mpr ⟨rfl, rfl⟩) (by simp)
    | cons a rest =>
      obtain ⟨a1, a2⟩ := a
      obtain ⟨rfl, rfl⟩ := (hmem a1 a2).mp List.mem_cons_self
      cases rest with
      | nil => rfl
      | cons b rest =>
        obtain ⟨b1, b2⟩ := b
        obtain ⟨rfl, rfl⟩ := (hmem b1 b2).mp (List.mem_cons_of_mem _ List.mem_cons_self)
        have := (List.pairwise_cons.mp t2).1 _ List.mem_cons_self
        exact absurd this (by simp)
  refine ⟨N, fun fuel hf => ?_⟩
  rw [t1 fuel hf, hases, hn]
  simp

/-- What is behind "#" in the name of an AS is lost: AS 1 is called "a#b", the block of the dump says "a". -/
theorem dump_violated_name : ∃ w f db text N, Written 32 none none hashOps demoEnv w f ∧ dbOpen f = .ok db ∧
    asesOf hashOps 1 = some (some (ascii "a#b")) ∧ (∀ fuel, N < fuel → handleDump fuel (ascii "now") db = .ok text) ∧
    readFile text = .ret [(some (ascii "aut-num"), [(ascii "aut-num", .text (ascii "AS1")), (ascii "name", .text (ascii "a"))])] ∧
    ¬ DumpReadsBack hashOps w (ascii "now") db := by
  obtain ⟨w, f, db, h1, h2, h3⟩ := example_file hash_ok (by decide) (l := []) (by decide +kernel) (by decide +kernel)
  obtain ⟨N, hN⟩ := dump_one h1 h2 h3 (s := [97, 35, 98]) rfl (by
    intro k hk
    have hk' : ¬ k = 1#32 := hk
    simp [hashOps, asesOf, asStep, hk']) (ascii "now")
  have hread : readFile (dumpHead (ascii "now") (some (lastSet vendorCall hashOps)) (some (lastSet licenseCall hashOps))
      (some (lastSet descriptionCall hashOps)) ++ dumpAs 1 [97, 35, 98]) =
      .ret [(some (ascii "aut-num"), [(ascii "aut-num", .text (ascii "AS1")), (ascii "name", .text (ascii "a"))])] := by decide +kernel
  refine ⟨w, f, db, _, N, h1, h2, rfl, hN, hread, ?_⟩
  rintro ⟨text, N', ases, nets, bs1, bs2, t1, t2, t3, t4, -, t6, -⟩
  have e1 := t1 (N + N' + 1) (by omega)
  rw [hN (N + N' + 1) (by omega)] at e1
  cases e1
  rw [hread] at t2
  have t2' := Call.ret.inj t2
  have hm : (1, [97, 35, 98]) ∈ ases := (t6 _ _).mpr ⟨1, some [97, 35, 98], rfl, rfl, rfl⟩
  have hall : ∀ {bs : List (Option Bytes × BlockData)} {l : List (Nat × CStr)},
      List.Forall₂ (fun b a => DescribesAs b a.1 a.2) bs l → ∀ a ∈ l, ∃ b ∈ bs, DescribesAs b a.1 a.2 := by
    intro bs l h
    induction h with
    | nil => simp
    | cons hd _ ih =>
      intro a ha
      rcases List.mem_cons.mp ha with rfl | ha
      · exact ⟨_, List.mem_cons_self, hd⟩
      · obtain ⟨b, hb, hb'⟩ := ih a ha
        exact ⟨b, List.mem_cons_of_mem _ hb, hb'⟩
  obtain ⟨b, hb, -, -, hname⟩ := hall t3 _ hm
  have hb' : b ∈ bs1 ++ bs2 := List.mem_append_left _ hb
  rw [← t2', List.mem_singleton] at hb'
  subst hb'
  revert hname
  decide

/-- A newline in the vendor ends the comment: the rest of the vendor is content, which makes the dump unreadable. -/
theorem dump_violated_vendor : ∃ w f db text N, Written 32 none none newlineOps demoEnv w f ∧ dbOpen f = .ok db ∧
    (∀ fuel, N < fuel → handleDump fuel (ascii "now") db = .ok text) ∧ readFile text = .exc .value ∧
    ¬ DumpReadsBack newlineOps w (ascii "now") db := by
  obtain ⟨w, f, db, h1, h2, h3⟩ := example_file newline_ok (by decide) (l := []) (by decide +kernel) (by decide +kernel)
  obtain ⟨N, hN⟩ := dump_one h1 h2 h3 (s := [97]) rfl (by
    intro k hk
    have hk' : ¬ k = 1#32 := hk
    simp [newlineOps, asesOf, asStep, hk']) (ascii "now")
  have hread : readFile (dumpHead (ascii "now") (some (lastSet vendorCall newlineOps)) (some (lastSet licenseCall newlineOps))
      (some (lastSet descriptionCall newlineOps)) ++ dumpAs 1 [97]) = .exc .value := by decide +kernel
  refine ⟨w, f, db, _, N, h1, h2, hN, hread, ?_⟩
  rintro ⟨text, N', ases, nets, bs1, bs2, t1, t2, -⟩
  have e1 := t1 (N + N' + 1) (by omega)
  rw [hN (N + N' + 1) (by omega)] at e1
  cases e1
  rw [hread] at t2
  cases t2

/-! ## C63 -/

/-- After a successful `update-overrides` there is an override for a network exactly if a block in the files is about
    it; it says what the first such block says.  The same for ASes.  There is only one override each.  (Blocks about networks
    with a prefix of length zero are skipped.) -/
theorem overrides_exact {old t : OverrideTables} {files : List Bytes} (h : updateOverrides old files = (.ret (), t)) :
    ∃ blocks, ReadsAll files blocks ∧
      (∀ n m, (n, m) ∈ t.networks ↔ netPrefix n ≠ 0 ∧ ∃ b, FirstBlock (AboutNet n) blocks b ∧ SaysMarks b.2 m) ∧
      (∀ k name m, (k, name, m) ∈ t.autnums ↔ ∃ b, FirstBlock (AboutAs k) blocks b ∧ SaysName b.2 name ∧ SaysMarks b.2 m) ∧
      (t.networks.map (·.1)).Nodup ∧ (t.autnums.map (·.1)).Nodup := by
  unfold updateOverrides at h
  cases ho : overrideFiles ⟨[], []⟩ files with
  | exc x => rw [ho] at h; cases h
  | ret t' =>
    rw [ho] at h
    cases h
    obtain ⟨blocks, h1, h2⟩ := overrideFiles_ret ho
    obtain ⟨h3, h4, -⟩ := overrideBlocks_mem h2
    refine ⟨blocks, h1, ?_, ?_, overrideBlocks_nodup h2 List.nodup_nil List.nodup_nil⟩
    · intro n m
      rw [h3]
      simp [saysMarks_iff]
    · intro k name m
      rw [h4]
      simp [saysMarks_iff, saysName_iff]

/-- `update-overrides` succeeds exactly if all lines with content have a colon and all numbers behind "AS" are digits
    and fit the column of the database; otherwise the overrides stay as they were. -/
theorem overrides_success (old : OverrideTables) (files : List Bytes) :
    ((updateOverrides old files).1 = .ret () ↔ ∃ blocks, ReadsAll files blocks ∧ ∀ b ∈ blocks, b.1 = some (ascii "aut-num") →
      ∀ s, valueAt b.2 "aut-num" = some (.text (ascii "AS" ++ s)) → ∃ k, Digits k s ∧ k < 2 ^ 63) ∧
    ((updateOverrides old files).1 ≠ .ret () → (updateOverrides old files).2 = old) := by
  unfold updateOverrides
  refine ⟨⟨fun h => ?_, ?_⟩, ?_⟩
  · cases ho : overrideFiles ⟨[], []⟩ files with
    | exc x => rw [ho] at h; cases h
    | ret t =>
      obtain ⟨blocks, h1, h2⟩ := overrideFiles_ret ho
      exact ⟨blocks, h1, overrideBlocks_ok.mp ⟨t, h2⟩⟩
  · rintro ⟨blocks, h1, h2⟩
    obtain ⟨t, ht⟩ := overrideFiles_ok (t := ⟨[], []⟩) h1 h2
    rw [ht]
  · cases overrideFiles ⟨[], []⟩ files with
    | exc x => exact fun _ => rfl
    | ret t => exact fun hc => absurd rfl hc

/-- A file of overrides: 10.1.2.3/8 in DE; AS 1, dropped; AS 1 again; something else -/
def overrideFile : Bytes :=
  ascii "net: 10.1.2.3/8\ncountry: DE\nis-anycast: YES\n\naut-num: AS1\nname: One\ndrop: 1\n\naut-num: AS1\nname: Two\n\nx: y\n"

example : (updateOverrides ⟨[], []⟩ [overrideFile]).1 = .ret () ∧
    (updateOverrides ⟨[], []⟩ [overrideFile]).2.networks.map (fun x => (x.1.first.toList.drop 12, x.1.pfx, x.2)) =
      [([10, 0, 0, 0], 104, ⟨some (ascii "DE"), none, none, some true, none⟩)] ∧
    (updateOverrides ⟨[], []⟩ [overrideFile]).2.autnums = [(1, some (ascii "One"), ⟨none, none, none, none, some true⟩)] :=
  ⟨by decide +kernel, by decide +kernel, by decide +kernel⟩

/-- A number that is none: nothing changes. -/
example : (updateOverrides ⟨[], [(1, none, ⟨none, none, none, none, none⟩)]⟩ [ascii "aut-num: AS2\n", ascii "aut-num: AS1x"]).1 = .exc .database ∧
    (updateOverrides ⟨[], [(1, none, ⟨none, none, none, none, none⟩)]⟩ [ascii "aut-num: AS2\n", ascii "aut-num: AS1x"]).2.autnums =
      [(1, none, ⟨none, none, none, none, none⟩)] := ⟨by decide +kernel, by decide +kernel⟩

/-! ## C64 -/

theorem same_network {x y : Network} (hx : Block x) (hy : Block y) (h : newNetwork x.first (netPrefix x) = newNetwork y.first (netPrefix y)) :
    value x.first = value y.first ∧ x.pfx = y.pfx := by
  have h1 := (network_parse hx).1
  have h2 := (network_parse hy).1
  obtain ⟨-, a, a1, -, a3, -, a5⟩ := netText_reads hx
  obtain ⟨-, b, b1, -, b3, -, b5⟩ := netText_reads hy
  unfold netText at a1 b1
  rw [h1, h] at a1
  rw [h2, a1] at b1
  cases b1
  exact ⟨by rw [← a3, ← b3], a5.symm.trans b5⟩

theorem ascending_inj {l : List Network} (h : Ascending l) {x y : Network} (hx : x ∈ l) (hy : y ∈ l) (hf : value x.first = value y.first)
    (hp : x.pfx = y.pfx) : x = y := by
  induction l with
  | nil => cases hx
  | cons a l ih =>
    obtain ⟨h1, h2⟩ := List.pairwise_cons.mp h
    have hno : ∀ z ∈ l, ¬ (value a.first = value z.first ∧ a.pfx = z.pfx) := by
      rintro z hz ⟨e1, e2⟩
      rcases h1 z hz with hc | hc
      · omega
      · omega
    rcases List.mem_cons.mp hx with rfl | hx'
    · rcases List.mem_cons.mp hy with rfl | hy'
      · rfl
      · exact absurd ⟨hf, hp⟩ (hno y hy')
    · rcases List.mem_cons.mp hy with rfl | hy'
      · exact absurd ⟨hf.symm, hp.symm⟩ (hno x hx')
      · exact ih h2 hx' hy'

theorem marksFrom_readBack (n : Network) (m : Marks) : MarksFrom (readBack n) m ↔ MarksFrom n m := by
  have h1 : (props (readBack n)).1 = (props n).1 := by rw [(readFrom_readBack n).2]
  have h2 : ∀ i, i < 16 → (readBack n).flags.getLsbD i = n.flags.getLsbD i := by
    intro i hi
    show (BitVec.ofNat 32 (n.flags.toNat % 2 ^ 16)).getLsbD i = _
    rw [BitVec.getLsbD_ofNat, Nat.testBit_mod_two_pow]
    have : decide (i < 16) = true := decide_eq_true hi
    have h32 : decide (i < 32) = true := decide_eq_true (by omega)
    rw [this, h32, Bool.true_and, Bool.true_and]
    rfl
  unfold MarksFrom
  rw [h1, h2 0 (by omega), h2 1 (by omega), h2 2 (by omega), h2 3 (by omega)]

/-- A dump as overrides: there is an override for each network that the database contains (except for those with a prefix of
    length zero), with its country and flags, and for each AS, with its name; and no other.  Missing: the same databases as
    in `dump_reads_back_partial`. -/
theorem dump_as_overrides_partial {K : Type} {ctz0 : Nat} (h0 : 8 ≤ ctz0) {key1 key2 : Option K} {ops : List (WOp K)} {e : WEnv K}
    {w : Writer K} {f : Bytes} (h : Written ctz0 key1 key2 ops e w f) {db : Db} (ho : dbOpen f = .ok db)
    (hd : ¬ TooDeep (· ∈ w.networks.networks)) (hv : ∀ n ∈ w.networks.networks, ¬ AroundV4 n) {generated : CStr} (hg : 10 ∉ generated)
    (hvendor : 10 ∉ lastSet vendorCall ops) (hlicense : 10 ∉ lastSet licenseCall ops)
    (hnames : ∀ number s, asesOf ops number = some (some s) → TidyName s) (old : OverrideTables) :
    ∃ text N, (∀ fuel, N < fuel → handleDump fuel generated db = .ok text) ∧
      ∃ t, updateOverrides old [text] = (.ret (), t) ∧
        (∀ n' m, (n', m) ∈ t.networks ↔ netPrefix n' ≠ 0 ∧
          ∃ n ∈ w.networks.networks, newNetwork n.first (netPrefix n) = .ok n' ∧ MarksFrom n m) ∧
        ∀ k name m, (k, name, m) ∈ t.autnums ↔ m = ⟨none, none, none, none, none⟩ ∧ ∃ number given, k = number.toNat ∧
          asesOf ops number = some given ∧ name = some (given.getD []) := by
  obtain ⟨ases, N, t1, t2, t3⟩ := dump_text h0 h ho hd hv generated
  obtain ⟨db', ho', hh⟩ := written_holds h0 h
  rw [ho] at ho'
  cases ho'
  have hok := stored_ok hh
  have hases : ∀ a ∈ ases, a.1 < 10 ^ 10 ∧ TidyName a.2 := by
    rintro ⟨k, name⟩ ha
    obtain ⟨number, given, rfl, h1, h2⟩ := (t3 _ _).mp ha
    refine ⟨by have := number.isLt; simp only; omega, ?_⟩
    cases given with
    | none => subst h2; show TidyName []; decide
    | some s => subst h2; exact hnames _ _ h1
  have hsmall : ∀ a ∈ ases, a.1 < 2 ^ 63 := by
    rintro ⟨k, name⟩ ha
    obtain ⟨number, given, rfl, -⟩ := (t3 _ _).mp ha
    have := number.isLt
    simp only
    omega
  have hread := read_dump hg (vendor := some (lastSet vendorCall ops)) (license := some (lastSet licenseCall ops))
    (fun v hv => by cases hv; exact hvendor) (fun v hv => by cases hv; exact hlicense) (description := some (lastSet descriptionCall ops)) hases hok
  refine ⟨_, N, t1, ?_⟩
  generalize hbl : (ases.map fun a => entryData (asItems a.1 a.2)) ++ (w.networks.networks.map readBack).map (fun n => entryData (netItems n)) =
    blocks at hread
  -- the two kinds of blocks
  have hasb : ∀ k (b : Option Bytes × BlockData), b ∈ blocks → AboutAs k b → ∃ name, (k, name) ∈ ases ∧ b = entryData (asItems k name) := by
    intro k b hb hab
    rw [← hbl] at hb
    rcases List.mem_append.mp hb with hb | hb
    · obtain ⟨⟨x, name⟩, ha, rfl⟩ := List.mem_map.mp hb
      have := (asBlock_about k x name (hases _ ha).1).mp hab
      subst this
      exact ⟨name, ha, rfl⟩
    · obtain ⟨n, hn, rfl⟩ := List.mem_map.mp hb
      have h1 := hab.1
      rw [(describes_net (hok n hn).1).1] at h1
      exact absurd h1 (by decide)
  have hnetb : ∀ n' (b : Option Bytes × BlockData), b ∈ blocks → AboutNet n' b → ∃ n ∈ w.networks.networks,
      newNetwork n.first (netPrefix n) = .ok n' ∧ b = entryData (netItems (readBack n)) := by
    intro n' b hb hab
    rw [← hbl] at hb
    rcases List.mem_append.mp hb with hb | hb
    · obtain ⟨⟨x, name⟩, ha, rfl⟩ := List.mem_map.mp hb
      have h1 := hab.1
      rw [(describes_as name (hases _ ha).1).1] at h1
      exact absurd h1 (by decide)
    · obtain ⟨m, hm, rfl⟩ := List.mem_map.mp hb
      obtain ⟨n, hn, rfl⟩ := List.mem_map.mp hm
      exact ⟨n, hn, (netBlock_about (hok _ hm).1 n').mp hab, rfl⟩
  have hnumbers : ∀ b ∈ blocks, NumbersOk b := by
    intro b hb hty s hs
    rw [← hbl] at hb
    rcases List.mem_append.mp hb with hb | hb
    · obtain ⟨⟨x, name⟩, ha, rfl⟩ := List.mem_map.mp hb
      obtain ⟨-, ⟨s', h2, h3⟩, -⟩ := describes_as name (hases _ ha).1
      rw [h2] at hs
      simp only [Option.some.injEq, BlockValue.text.injEq, List.append_cancel_left_eq] at hs
      subst hs
      exact ⟨x, numeral_digits h3, hsmall _ ha⟩
    · obtain ⟨n, hn, rfl⟩ := List.mem_map.mp hb
      rw [(describes_net (hok n hn).1).1] at hty
      exact absurd hty (by decide)
  obtain ⟨t, ht⟩ := (overrideBlocks_ok (t := ⟨[], []⟩)).mpr hnumbers
  obtain ⟨m1, m2, -⟩ := overrideBlocks_mem ht
  refine ⟨t, ?_, ?_, ?_⟩
  · unfold updateOverrides
    rw [overrideFiles, hread]
    simp only
    rw [ht]
    rfl
  · intro n' m
    rw [m1]
    simp only [List.not_mem_nil, false_or, List.map_nil, not_false_eq_true, true_and]
    refine and_congr_right fun _ => ?_
    have huniq : ∀ a ∈ blocks, ∀ b ∈ blocks, AboutNet n' a → AboutNet n' b → a = b := by
      intro a ha b hb h1 h2
      obtain ⟨x, x1, x2, rfl⟩ := hnetb n' a ha h1
      obtain ⟨y, y1, y2, rfl⟩ := hnetb n' b hb h2
      have hxy : x = y := by
        obtain ⟨hfx, hpx⟩ := same_network ((mem_networks_wf hh.wf).mp x1).1 ((mem_networks_wf hh.wf).mp y1).1 (x2.trans y2.symm)
        exact ascending_inj (networks_ascending hh.wf.1) x1 y1 hfx hpx
      rw [hxy]
    have hfrom : ∀ n ∈ w.networks.networks, (m = marksOf (entryData (netItems (readBack n))).2 ↔ MarksFrom n m) := by
      intro n hn
      rw [← saysMarks_iff, describesNet_says (describes_net (hok _ (List.mem_map_of_mem hn)).1)]
      exact marksFrom_readBack n m
    constructor
    · rintro ⟨b, hb, hm⟩
      obtain ⟨b1, b2⟩ := (firstBlock_unique huniq b).mp hb
      obtain ⟨n, n1, n2, rfl⟩ := hnetb n' b b1 b2
      exact ⟨n, n1, n2, (hfrom n n1).mp hm⟩
    · rintro ⟨n, n1, n2, n3⟩
      refine ⟨entryData (netItems (readBack n)), (firstBlock_unique huniq _).mpr ⟨?_, ?_⟩, (hfrom n n1).mpr n3⟩
      · rw [← hbl]
        exact List.mem_append_right _ (List.mem_map_of_mem (f := fun n => entryData (netItems n)) (List.mem_map_of_mem n1))
      · exact (netBlock_about (hok _ (List.mem_map_of_mem n1)).1 n').mpr n2
  · intro k name m
    rw [m2]
    simp only [List.not_mem_nil, false_or, List.map_nil, not_false_eq_true, true_and]
    have huniq : ∀ a ∈ blocks, ∀ b ∈ blocks, AboutAs k a → AboutAs k b → a = b := by
      intro a ha b hb h1 h2
      obtain ⟨x, x1, rfl⟩ := hasb k a ha h1
      obtain ⟨y, y1, rfl⟩ := hasb k b hb h2
      obtain ⟨nx, gx, ex1, ex2, ex3⟩ := (t3 _ _).mp x1
      obtain ⟨ny, gy, ey1, ey2, ey3⟩ := (t3 _ _).mp y1
      have : nx = ny := BitVec.eq_of_toNat_eq (ex1.symm.trans ey1)
      subst this
      rw [ex2] at ey2
      cases ey2
      rw [ex3, ey3]
    have hsay : ∀ (x : Nat) (s : CStr), textOf (entryData (asItems x s)).2 (keyOf strName) = some s ∧
        marksOf (entryData (asItems x s)).2 = ⟨none, none, none, none, none⟩ := fun x s => ⟨rfl, rfl⟩
    constructor
    · rintro ⟨b, hb, hname, hm⟩
      obtain ⟨b1, b2⟩ := (firstBlock_unique huniq b).mp hb
      obtain ⟨s, s1, rfl⟩ := hasb k b b1 b2
      rw [(hsay k s).1] at hname
      rw [(hsay k s).2] at hm
      obtain ⟨number, given, e1, e2, e3⟩ := (t3 _ _).mp s1
      exact ⟨hm, number, given, e1, e2, by rw [hname, e3]⟩
    · rintro ⟨hm, number, given, e1, e2, e3⟩
      have hmem := (t3 k (given.getD [])).mpr ⟨number, given, e1, e2, rfl⟩
      refine ⟨_, (firstBlock_unique huniq _).mpr ⟨?_, (asBlock_about k k (given.getD []) (hases _ hmem).1).mpr rfl⟩, ?_, ?_⟩
      · rw [← hbl]
        exact List.mem_append_left _ (List.mem_map_of_mem (f := fun a => entryData (asItems a.1 a.2)) hmem)
      · rw [(hsay _ _).1]; exact e3
      · rw [(hsay _ _).2]; exact hm

/-- In the sample, 10.0.0.0/8 is in DE, AS 204867 has the name "L". -/
example : ∃ w f db text N t, Written 32 none none demoOps demoEnv w f ∧ dbOpen f = .ok db ∧
    (∀ fuel, N < fuel → handleDump fuel (ascii "now") db = .ok text) ∧ updateOverrides ⟨[], []⟩ [text] = (.ret (), t) ∧
    (∃ n', newNetwork net10_8.first 8 = .ok n' ∧ (n', ⟨some [68, 69], none, none, none, none⟩) ∈ t.networks) ∧
    (204867, some [76], ⟨none, none, none, none, none⟩) ∈ t.autnums := by
  obtain ⟨w, f, db, h1, h2, h3, h4, h5⟩ := demo_plain
  obtain ⟨text, N, t1, t, t2, t3, t4⟩ := dump_as_overrides_partial (generated := ascii "now") (by decide) h1 h2 h4 h5 (by decide) (by decide)
    (by decide) demo_names ⟨[], []⟩
  obtain ⟨n', hn'⟩ := (new_accepts net10_8.first 8).mpr (by decide)
  refine ⟨w, f, db, text, N, t, h1, h2, t1, t2, ⟨n', hn', ?_⟩, ?_⟩
  · rw [t3, h3]
    refine ⟨by rw [(new_canonical _ _ _ hn').2.2.1]; decide, net10_8, List.mem_cons_self, ?_, by unfold MarksFrom; decide⟩
    rw [← hn']
    rfl
  · rw [t4]
    exact ⟨rfl, 204867, some [76], rfl, rfl, rfl⟩

end Loc.Props
