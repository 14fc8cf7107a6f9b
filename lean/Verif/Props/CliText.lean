import Verif.Model.CliText
import Verif.Lemmas.CliText
import Verif.Lemmas.DumpRead
import Verif.Lemmas.Summarize
import Verif.Props.Cli
/-
C91: the text that `location lookup` prints.
-/
namespace Loc.Props
open Loc Loc.Spec

theorem countryLine_text {K : Type} (ops : List (WOp K)) (code : CStr) : ∃ o : Option Bytes,
    (o = if code = [] then none else some (match countriesOf ops code with | some (_, name) => name.getD [] | none => code)) ∧
    cliStdout (CountryLine ops code) = (o.toList.map (ascii "  Country                 : " ++ ·)).flatMap (· ++ [10]) := by
  unfold CountryLine
  by_cases h : code = []
  · rw [if_pos h, if_pos h]
    exact ⟨none, rfl, rfl⟩
  · rw [if_neg h, if_neg h]
    refine ⟨_, rfl, ?_⟩
    simp only [cliStdout, cliLineText, cliField, Option.toList, List.map_cons, List.map_nil, List.flatMap_cons, List.flatMap_nil, List.append_nil]
    rfl

theorem asLine_text {K : Type} {ops : List (WOp K)} {asn : BitVec 32} {lines : List CliLine} (h : AsLine ops asn lines) : ∃ o : Option Bytes,
    (asn = 0 → o = none) ∧ (asn ≠ 0 → ∃ t, o = some t ∧ AsText asn.toNat ((asesOf ops asn).map fun name => name.getD []) t) ∧
    cliStdout lines = (o.toList.map (ascii "  Autonomous System       : " ++ ·)).flatMap (· ++ [10]) := by
  unfold AsLine at h
  by_cases hz : asn = 0
  · rw [if_pos hz] at h
    subst h
    exact ⟨none, fun _ => rfl, fun g => absurd hz g, rfl⟩
  · rw [if_neg hz] at h
    obtain ⟨t, ht, rfl⟩ := h
    refine ⟨some t, fun g => absurd g hz, fun _ => ⟨t, rfl, ht⟩, ?_⟩
    simp only [cliStdout, cliLineText, cliField, Option.toList, List.map_cons, List.map_nil, List.flatMap_cons, List.flatMap_nil, List.append_nil]
    rfl

theorem flags_text (m : Network) :
    cliStdout ((([1, 2, 4, 8] : List (BitVec 32)).filter fun f => decide (m.flags &&& f ≠ 0)).map CliLine.flag) =
      ((if decide (m.flags &&& 1 ≠ 0) then [ascii "  Anonymous Proxy         : yes"] else []) ++
      (if decide (m.flags &&& 2 ≠ 0) then [ascii "  Satellite Provider      : yes"] else []) ++
      (if decide (m.flags &&& 4 ≠ 0) then [ascii "  Anycast                 : yes"] else []) ++
      (if decide (m.flags &&& 8 ≠ 0) then [ascii "  Hostile Network safe to drop: yes"] else [])).flatMap (· ++ [10]) := by
  simp only [List.filter_cons, List.filter_nil]
  generalize decide (m.flags &&& 1 ≠ 0) = b1
  generalize decide (m.flags &&& 2 ≠ 0) = b2
  generalize decide (m.flags &&& 4 ≠ 0) = b3
  generalize decide (m.flags &&& 8 ≠ 0) = b4
  cases b1 <;> cases b2 <;> cases b3 <;> cases b4 <;> decide

theorem cliStdout_append (a b : List CliLine) : cliStdout (a ++ b) = cliStdout a ++ cliStdout b := List.flatMap_append

theorem networkLines_text {K : Type} {ops : List (WOp K)} {s : Bytes} {m : Network} {lines : List CliLine} (h : NetworkLines ops s m lines) :
    ∃ x, ShowsNetwork ops s m x ∧ cliStdout lines = (shownLines x).flatMap (· ++ [10]) := by
  obtain ⟨as, ha, rfl⟩ := h
  obtain ⟨c, hc, tc⟩ := countryLine_text ops (props m).1
  obtain ⟨a, ha0, ha1, ta⟩ := asLine_text ha
  refine ⟨⟨s, netText m, c, a, decide (m.flags &&& 1 ≠ 0), decide (m.flags &&& 2 ≠ 0), decide (m.flags &&& 4 ≠ 0), decide (m.flags &&& 8 ≠ 0)⟩,
    ⟨rfl, rfl, hc, ha0, ha1, rfl, rfl, rfl, rfl⟩, ?_⟩
  rw [cliStdout_append, cliStdout_append, cliStdout_append, tc, ta, flags_text]
  have e1 : cliStdout [.address s, .network m] = (s ++ ascii ":") ++ [10] ++ ((ascii "  Network                 : " ++ netText m) ++ [10]) := by
    simp only [cliStdout, cliLineText, cliField, List.flatMap_cons, List.flatMap_nil, List.append_nil]
    rw [List.append_assoc s, List.append_assoc s, List.append_assoc s]
    rfl
  rw [e1]
  unfold shownLines shownMore
  simp only [List.flatMap_cons, List.flatMap_append, List.append_assoc]

theorem session_text {K : Type} {ops : List (WOp K)} {answers : Addr → Option Network → Prop} {args : List Bytes} {rs : List (Option Network)}
    {lines : List CliLine} (h : Session ops answers args rs lines) : ∃ xs, ShowsSession ops args rs xs ∧ cliStdout lines = shownText xs := by
  induction h with
  | nil => exact ⟨[], .nil, rfl⟩
  | nothing _ _ _ ih =>
    obtain ⟨xs, h1, h2⟩ := ih
    exact ⟨xs, .nothing h1, h2⟩
  | found _ _ hn _ ih =>
    obtain ⟨xs, h1, h2⟩ := ih
    obtain ⟨x, h3, h4⟩ := networkLines_text hn
    refine ⟨x :: xs, .found h3 h1, ?_⟩
    rw [cliStdout_append, h2, h4]
    unfold shownText
    rw [List.flatMap_cons, List.flatMap_append]

/-- C91: on standard output, `location lookup` shows for each address that is found its network, its country, its AS and its flags,
    in the order of the addresses and in this layout.  Under the conditions of C55. -/
theorem lookup_text_partial {K : Type} {ctz0 : Nat} (h0 : 8 ≤ ctz0) {key1 key2 : Option K} {ops : List (WOp K)} {e : WEnv K}
    {w : Writer K} {f : Bytes} (h : Written ctz0 key1 key2 ops e w f) {db : Db} (ho : dbOpen f = .ok db)
    (horder : (codesAdded ops).Pairwise (fun a b => codeNumber a ≤ codeNumber b))
    (hcont : ∀ code continent name, countriesOf ops code = some (continent, name) → continent ≠ none)
    (hasn : ∀ n ∈ w.networks.networks, n.asn.toNat < 2 ^ 31)
    (args : List Bytes) (hargs : ∀ s ∈ args, (0 : Byte) ∉ s ∧ ∃ a, Denotes (beforeSlash s) a ∧ ¬ StoredHost (· ∈ w.networks.networks) a) :
    ∃ lines rs xs, cliLookup db 0 args = .ok (lines, .ret (if none ∈ rs then 1 else 0)) ∧
      List.Forall₂ (fun s r => ∃ a, Denotes (beforeSlash s) a ∧ lookup db a = .ok (.ok r)) args rs ∧
      ShowsSession ops args rs xs ∧ cliStdout lines = shownText xs := by
  obtain ⟨lines, rs, h1, h2⟩ := cli_lookup_partial h0 h ho horder hcont hasn args hargs
  obtain ⟨xs, h3, h4⟩ := session_text h2
  refine ⟨lines, rs, xs, h1, ?_, h3, h4⟩
  clear h1 h3 h4 hargs
  induction h2 with
  | nil => exact .nil
  | nothing hd ha _ ih => exact .cons ⟨_, hd, ha⟩ ih
  | found hd ha _ _ ih => exact .cons ⟨_, hd, ha⟩ ih

/-- C91: from this text one can read what was shown: all of it, if there are no newlines in it and no address begins with a space. -/
theorem lookup_text_read {xs ys : List Displayed} (hx : ∀ x ∈ xs, PlainDisplay x) (hy : ∀ y ∈ ys, PlainDisplay y)
    (h : shownText xs = shownText ys) : xs = ys :=
  shown_injective hx hy (joined_injective
    (fun l hl => (by obtain ⟨x, hx', hl⟩ := List.mem_flatMap.mp hl; exact shownLines_plain (hx x hx') hl))
    (fun l hl => (by obtain ⟨y, hy', hl⟩ := List.mem_flatMap.mp hl; exact shownLines_plain (hy y hy') hl)) h)

/-- The texts are such, if the names of the countries and ASes and the arguments are: the rest never has newlines. -/
theorem shows_plain {K : Type} {ops : List (WOp K)} {s : Bytes} {m : Network} {x : Displayed} (h : ShowsNetwork ops s m x) {a : Addr}
    (hs : Denotes (beforeSlash s) a) (hn : 10 ∉ s) (hb : Block m) (hcc : CountryOk m)
    (hc : ∀ code c name, countriesOf ops code = some (c, some name) → 10 ∉ name)
    (ha : ∀ number name, asesOf ops number = some (some name) → 10 ∉ name) : PlainDisplay x := by
  refine ⟨h.address ▸ hn, ?_, ?_, ?_, ?_⟩
  · rw [h.address]
    cases hs' : s with
    | nil => exact fun g => by cases g
    | cons c cs =>
      intro g
      cases g
      have hm : (32 : Byte) ∈ beforeSlash s := by
        rw [hs']
        unfold beforeSlash
        rw [List.takeWhile_cons_of_pos (by decide)]
        exact List.mem_cons_self
      exact (denotes_solid hs _ hm).1 (by decide)
  · rw [h.network]
    exact fun g => (netText_solid hb _ g).1 (by decide)
  · intro t ht
    rw [h.country] at ht
    by_cases he : (props m).1 = []
    · rw [if_pos he] at ht
      cases ht
    · rw [if_neg he] at ht
      have ht := Option.some.inj ht
      cases hk : countriesOf ops (props m).1 with
      | none =>
        rw [hk] at ht
        rw [← ht, ← countryCode_props]
        exact fun g => (code_solid hcc _ g).1 (by decide)
      | some p =>
        rw [hk] at ht
        obtain ⟨c, name⟩ := p
        rw [← ht]
        cases name with
        | none => exact fun g => by cases g
        | some name => exact hc _ _ _ hk
  · intro t ht
    by_cases hz : m.asn = 0
    · rw [h.noAs hz] at ht
      cases ht
    · obtain ⟨u, hu, d, hd, e⟩ := h.as hz
      rw [hu] at ht
      cases ht
      rw [e]
      refine not_mem_append' (not_mem_append' (by decide) fun g => (numeral_solid hd _ g).1 (by decide)) ?_
      cases hk : asesOf ops m.asn with
      | none => exact fun g => by cases g
      | some name =>
        cases name with
        | none => exact not_mem_append' (by decide) (fun g => by cases g)
        | some name => exact not_mem_append' (by decide) (ha _ _ hk)

/-- C91: `location get-as` prints the number and the name of each given AS that is known. -/
theorem get_as_text_partial {K : Type} {ctz0 : Nat} (h0 : 8 ≤ ctz0) {key1 key2 : Option K} {ops : List (WOp K)} {e : WEnv K}
    {w : Writer K} {f : Bytes} (h : Written ctz0 key1 key2 ops e w f) {db : Db} (ho : dbOpen f = .ok db) (args : List (Option Nat))
    (hargs : ∀ n, some n ∈ args → n < 2 ^ 31) :
    ∃ lines code, cliGetAs db 0 (args.map (Option.map Int.ofNat)) = .ok (lines, .ret code) ∧ Sentences (knownAs ops args) (cliStdout lines) := by
  obtain ⟨code, h1, -⟩ := cli_get_as_partial h0 h ho args hargs
  refine ⟨_, code, h1, ?_⟩
  clear h1
  induction args with
  | nil => exact .nil
  | cons x args ih =>
    have ih := ih (fun n hn => hargs n (List.mem_cons_of_mem _ hn))
    cases x with
    | none => exact ih
    | some n =>
      unfold knownAs
      rw [List.map_cons]
      cases hk : asesOf ops (BitVec.ofNat 32 n) with
      | none =>
        rw [List.filterMap_cons_none (by simp only [Option.bind_some, hk, Option.map_none])]
        have hx : AsAnswer ops (some n) = .noAs n := by
          unfold AsAnswer
          simp only
          rw [hk]
        rw [hx]
        exact ih
      | some name =>
        rw [List.filterMap_cons_some (b := (n, name.getD [])) (by simp only [Option.bind_some, hk, Option.map_some])]
        have hd : Numeral 10 n (decStr n) := decStr_numeral (by have := hargs n List.mem_cons_self; omega)
        have hx : AsAnswer ops (some n) = .belongs n (name.getD []) := by
          unfold AsAnswer
          simp only
          rw [hk]
        rw [hx]
        exact .cons hd ih

/-! ### Samples -/

theorem netText_same {m n : Network} (hm : Block m) (hn : Block n) (h : SameBlock m n) : netText m = netText n := by
  unfold netText netPrefix
  rw [value_inj h.1, sameBlock_family hm hn h, h.2]

theorem numeral_one {d : CStr} (h : Numeral 10 1 d) : d = [49] := by
  have hl := numeral_length h (m := 1) (by decide) (by decide)
  obtain ⟨ds, h1, -, h3, -, h5⟩ := h
  cases d with
  | nil => cases ds with
    | nil => exact absurd rfl h3
    | cons x xs => cases h1
  | cons c cs =>
    have : cs = [] := by
      rw [List.length_cons] at hl
      exact List.length_eq_zero_iff.mp (by omega)
    subst this
    cases ds with
    | nil => cases h1
    | cons x xs =>
      cases xs with
      | cons y ys =>
        have := congrArg List.length h1
        simp only [List.length_map, List.length_cons, List.length_nil] at this
        omega
      | nil =>
        have hx : x = 1 := by
          unfold ofDigits at h5
          simpa using h5
        subst hx
        have hc : digitOf c = some 1 := by injection h1
        have := forall_byte (P := fun c => digitOf c = some 1 → c = 49) (by decide +kernel) c hc
        rw [this]

/-- 10.0.0.0/8 of AS 1, with these flags; AS 1 has this name. -/
def flagOps (flags : BitVec 32) (name : CStr) : List (WOp Unit) :=
  [.addNetwork { net10_8p with asn := 1, flags := flags }, .addAs 1 (some name)]

/-- What `location lookup 10.1.2.3` prints for a database with this network. -/
theorem flag_shown {flags : BitVec 32} (hf : flags.toNat < 2 ^ 16) {name : CStr} {w : Writer Unit} {f : Bytes} {db : Db}
    (h : Written 32 none none (flagOps flags name) demoEnv w f) (ho : dbOpen f = .ok db)
    (hl : w.networks.networks = [{ net10_8p with asn := 1, flags := flags }]) :
    ∃ lines, cliLookup db 0 [text10] = .ok (lines, .ret 0) ∧
      cliStdout lines = shownText [⟨text10, netText net10_8p, none, some (ascii "AS1 - " ++ name), decide (flags &&& 1 ≠ 0), decide (flags &&& 2 ≠ 0),
        decide (flags &&& 4 ≠ 0), decide (flags &&& 8 ≠ 0)⟩] := by
  have hn : ¬ StoredHost (· ∈ w.networks.networks) (ip4 10 1 2 3) := by
    rw [hl]
    rintro ⟨k, hk, h1, -⟩
    rw [List.mem_singleton] at hk
    subst hk
    cases h1
  have hlook : ∀ a r, Denotes (beforeSlash text10) a → lookup db a = .ok (.ok r) → ∃ m, r = some m ∧ netText m = netText net10_8p ∧
      (props m).1 = [] ∧ m.asn = 1 ∧ m.flags = flags := by
    intro a r hd hr
    have ha : a = ip4 10 1 2 3 := by
      have g1 := (parse_accepts_iff text10 _).mpr hd
      rw [(parse_accepts_iff text10 _).mpr text10_denotes.2] at g1
      cases g1
      rfl
    subst ha
    obtain ⟨r', h1, h2, -⟩ := lookup_longest_prefix_disjoint (by decide) h ho hn (by rw [hl]; exact List.pairwise_singleton _ _)
      (by
        rw [hl]
        intro n hn _ hx
        rw [List.mem_singleton] at hn
        subst hn
        exact absurd hx.1 (by decide : ¬ net10_8p.pfx = 95))
    rw [hr] at h1
    cases h1
    have hb : Block { net10_8p with asn := 1, flags := flags } := by
      have : Block net10_8p := by decide
      exact ⟨this.1, this.2, this.3, this.4⟩
    obtain ⟨m, rfl, -⟩ := h2 { net10_8p with asn := 1, flags := flags } (by
      rw [hl]
      refine ⟨List.mem_singleton.mpr rfl, (by decide : Contains net10_8p (ip4 10 1 2 3)), ?_⟩
      intro m hm _
      rw [List.mem_singleton] at hm; subst hm; exact Nat.le_refl _)
    obtain ⟨hbm, -, k, hk, hs, hp⟩ := lookup_sound (by decide) h ho hr
    have hkk := hk.1
    rw [hl, List.mem_singleton] at hkk
    subst hkk
    refine ⟨m, rfl, netText_same hbm (by decide : Block net10_8p) hs, congrArg (·.1) hp, congrArg (·.2.1) hp, ?_⟩
    have := congrArg (·.2.2) hp
    simp only at this
    rw [Nat.mod_eq_of_lt hf, BitVec.ofNat_toNat, BitVec.setWidth_eq] at this
    exact this
  obtain ⟨lines, rs, xs, h1, h2, h3, h4⟩ := lookup_text_partial (by decide) h ho List.Pairwise.nil (fun _ _ _ g => by cases g)
    (by rw [hl]; intro n hn; rw [List.mem_singleton] at hn; subst hn; exact (by decide : (1#32).toNat < 2 ^ 31)) [text10] (by
      intro s hs
      rw [List.mem_singleton] at hs
      subst hs
      exact ⟨text10_denotes.1, _, text10_denotes.2, hn⟩)
  cases h2 with
  | cons g1 g2 =>
    cases g2
    obtain ⟨a, hd, hr⟩ := g1
    obtain ⟨m, rfl, e1, e2, e3, e4⟩ := hlook a _ hd hr
    cases h3 with
    | found g3 g4 =>
      cases g4
      refine ⟨lines, h1, ?_⟩
      rw [h4]
      rename_i x
      obtain ⟨x1, x2, x3, x4, x5, x6, x7, x8⟩ := x
      obtain ⟨k1, k2, k3, -, k5, k6, k7, k8, k9⟩ := g3
      simp only at k1 k2 k3 k5 k6 k7 k8 k9
      obtain ⟨t, rfl, d, hd1, hd2⟩ := k5 (by rw [e3]; decide)
      rw [e3] at hd1 hd2
      rw [numeral_one hd1] at hd2
      have ha : asesOf (flagOps flags name) 1 = some (some name) := rfl
      rw [ha] at hd2
      rw [e2, if_pos rfl] at k3
      rw [k1, k2, k3, k6, k7, k8, k9, e1, e4, hd2]
      rfl

/-- C91, violated: names may hold newlines, and then what is printed can say what is not so: here, that a network without flags
    is anycast.  The other database, which prints the same, holds an anycast network. -/
theorem lookup_text_violated : ∃ w f db lines w' f' db' lines', 
    Written 32 none none (flagOps 0 (ascii "x\n  Anycast                 : yes")) demoEnv w f ∧ dbOpen f = .ok db ∧
    Written 32 none none (flagOps 4 (ascii "x")) demoEnv w' f' ∧ dbOpen f' = .ok db' ∧
    cliLookup db 0 [text10] = .ok (lines, .ret 0) ∧ cliLookup db' 0 [text10] = .ok (lines', .ret 0) ∧
    cliStdout lines = cliStdout lines' := by
  have hb : ∀ flags name, (0 : Byte) ∉ name → ∀ op ∈ flagOps flags name, OpOk 32 op := by
    intro flags name hname op hop
    rcases List.mem_cons.mp hop with rfl | hop
    · exact (BitVec.zero_or (x := flags) ▸ Built.flag flags (Built.asn 1 (net10_8p_built 32)))
    · rw [List.mem_singleton] at hop
      subst hop
      intro x hx
      cases hx
      exact hname
  obtain ⟨w, f, db, h, ho, hl⟩ := example_file (hb 0 (ascii "x\n  Anycast                 : yes") (by decide)) (by decide) (by decide +kernel)
    (l := [{ net10_8p with asn := 1, flags := 0 }]) (by decide +kernel)
  obtain ⟨w', f', db', h', ho', hl'⟩ := example_file (hb 4 (ascii "x") (by decide)) (by decide) (by decide +kernel)
    (l := [{ net10_8p with asn := 1, flags := 4 }]) (by decide +kernel)
  obtain ⟨lines, h1, h2⟩ := flag_shown (by decide) h ho hl
  obtain ⟨lines', h1', h2'⟩ := flag_shown (by decide) h' ho' hl'
  refine ⟨w, f, db, lines, w', f', db', lines', h, ho, h', ho', h1, h1', ?_⟩
  rw [h2, h2']
  decide +kernel

end Loc.Props
