import Verif.Lemmas.Need
import Verif.Props.Lookup
/-
C16-C19: enumerating networks.
-/
namespace Loc.Props
open Loc Loc.Spec

/-- `m` is the stored network `n` as it comes back from the file, which holds 16 flag bits. -/
def ReadFrom (n m : Network) : Prop :=
  SameBlock m n ∧ props m = ((props n).1, n.asn, BitVec.ofNat 32 (n.flags.toNat % 2 ^ 16))

theorem readFrom_readBack (n : Network) : ReadFrom n (readBack n) := by
  refine ⟨⟨rfl, rfl⟩, ?_⟩
  unfold props readBack
  simp only [Prod.mk.injEq, and_true]
  by_cases hz : n.cc0 = 0
  · rw [if_pos hz, if_pos hz]
  · rw [if_neg hz, if_neg hz, if_neg hz]

theorem enum_aux {db : Db} {t : Tree} (h : Holds db t) (hd : ¬ TooDeep (· ∈ t.networks)) (hv : ∀ n ∈ t.networks, ¬ AroundV4 n) (f : Filter) :
    ∀ fuel, t.networks.length < fuel → ∃ s, drain (nextNetwork db) fuel (enumNew f) = .ok ((t.networks.map readBack).filter (matchNetwork f), true, s) ∧
      ∃ s', nextNetwork db s = .ok (.done, s') := by
  intro fuel hf
  have hn : need t ≤ 255 := by
    have := mt (tooDeep_iff h.wf h.pruned).mp hd
    omega
  have he := enumNew_at h f hn (fun n hn hs => hv n hn ((stale_iff ((mem_networks_wf h.wf).mp hn).1).mp hs))
  obtain ⟨e', h1, h2⟩ := drain_enumAt f fuel _ _ he rfl (by simpa using hf)
  refine ⟨e', h1, ?_⟩
  rcases next_enumAt h2 true with ⟨pre, n, post, _, h3, -⟩ | ⟨e2, -, h3, -⟩
  · exact absurd (congrArg List.length h3) (by simp)
  · exact ⟨e2, h3⟩

/-! ## C16, C17 -/

/-- Calling `next_network` on a new enumerator until it returns nothing yields every stored network exactly once (the
    result is strictly ascending), with its properties, in ascending order, and nothing else; further calls return
    nothing.  Missing: databases with a network of the kind `AroundV4` (where it does not hold:
    `network_enumeration_violated`) and databases whose networks do not fit the stack (`TooDeep`, see C19). -/
theorem network_enumeration_partial {K : Type} {ctz0 : Nat} (h0 : 8 ≤ ctz0) {key1 key2 : Option K} {ops : List (WOp K)} {e : WEnv K}
    {w : Writer K} {f : Bytes} (h : Written ctz0 key1 key2 ops e w f) {db : Db} (ho : dbOpen f = .ok db)
    (hd : ¬ TooDeep (· ∈ w.networks.networks)) (hv : ∀ n ∈ w.networks.networks, ¬ AroundV4 n) :
    ∃ l, (∀ fuel, l.length < fuel → ∃ s, drain (nextNetwork db) fuel (enumNew noFilter) = .ok (l, true, s) ∧
        ∃ s', nextNetwork db s = .ok (.done, s')) ∧ Ascending l ∧
      (∀ n ∈ w.networks.networks, ∃ m ∈ l, ReadFrom n m) ∧ (∀ m ∈ l, ∃ n ∈ w.networks.networks, ReadFrom n m) := by
  obtain ⟨db', ho', hh⟩ := written_holds h0 h
  rw [ho] at ho'
  cases ho'
  refine ⟨w.networks.networks.map readBack, fun fuel hf => ?_, ?_, ?_, ?_⟩
  · obtain ⟨s, h1, h2⟩ := enum_aux hh hd hv noFilter fuel (by simpa using hf)
    rw [List.filter_eq_self (p := matchNetwork noFilter) |>.mpr (fun m _ => rfl)] at h1
    exact ⟨s, h1, h2⟩
  · unfold Ascending
    rw [List.pairwise_map]
    exact networks_ascending hh.wf.1
  · exact fun n hn => ⟨readBack n, List.mem_map_of_mem hn, readFrom_readBack n⟩
  · intro m hm
    obtain ⟨n, hn, rfl⟩ := List.mem_map.mp hm
    exact ⟨n, hn, readFrom_readBack n⟩

/-- With filters, exactly the networks the filters ask for, of those an enumeration without filters returns, in the
    same order.  Missing: the same databases as above. -/
theorem filtered_enumeration_partial {K : Type} {ctz0 : Nat} (h0 : 8 ≤ ctz0) {key1 key2 : Option K} {ops : List (WOp K)} {e : WEnv K}
    {w : Writer K} {f : Bytes} (h : Written ctz0 key1 key2 ops e w f) {db : Db} (ho : dbOpen f = .ok db)
    (hd : ¬ TooDeep (· ∈ w.networks.networks)) (hv : ∀ n ∈ w.networks.networks, ¬ AroundV4 n) :
    ∃ l, (∀ fuel, l.length < fuel → ∃ s, drain (nextNetwork db) fuel (enumNew noFilter) = .ok (l, true, s)) ∧
      ∀ flt, FilterOk flt → ∃ found, found.Sublist l ∧ (∀ m, m ∈ found ↔ m ∈ l ∧ Wanted flt m) ∧
        ∀ fuel, l.length < fuel → ∃ s, drain (nextNetwork db) fuel (enumNew flt) = .ok (found, true, s) := by
  obtain ⟨db', ho', hh⟩ := written_holds h0 h
  rw [ho] at ho'
  cases ho'
  refine ⟨w.networks.networks.map readBack, fun fuel hf => ?_, fun flt hflt => ⟨(w.networks.networks.map readBack).filter (matchNetwork flt), List.filter_sublist, ?_, fun fuel hf => ?_⟩⟩
  · obtain ⟨s, h1, h2⟩ := enum_aux hh hd hv noFilter fuel (by simpa using hf)
    rw [List.filter_eq_self (p := matchNetwork noFilter) |>.mpr (fun m _ => rfl)] at h1
    exact ⟨s, h1⟩
  · intro m
    rw [List.mem_filter]
    refine and_congr_right fun hm => ?_
    obtain ⟨n, hn, rfl⟩ := List.mem_map.mp hm
    exact matchNetwork_iff hflt (readBack_block ((mem_networks_wf hh.wf).mp hn).1) (readBack_countryOk (hh.country n hn))
  · obtain ⟨s, h1, h2⟩ := enum_aux hh hd hv flt fuel (by simpa using hf)
    exact ⟨s, h1⟩

/-! ## C19 -/

/-- Enumerating the networks of a database writes outside of the traversal stack exactly if the stored networks are
    `TooDeep` (in databases without networks of the kind `AroundV4`, where the enumeration may end earlier). -/
theorem stack_overflow_iff {K : Type} {ctz0 : Nat} (h0 : 8 ≤ ctz0) {key1 key2 : Option K} {ops : List (WOp K)} {e : WEnv K}
    {w : Writer K} {f : Bytes} (h : Written ctz0 key1 key2 ops e w f) {db : Db} (ho : dbOpen f = .ok db)
    (hv : ∀ n ∈ w.networks.networks, ¬ AroundV4 n) (flt : Filter) {fuel : Nat} (hf : w.networks.networks.length < fuel) :
    drain (nextNetwork db) fuel (enumNew flt) = .error .oob ↔ TooDeep (· ∈ w.networks.networks) := by
  obtain ⟨db', ho', hh⟩ := written_holds h0 h
  rw [ho] at ho'
  cases ho'
  constructor
  · intro hd
    by_contra hno
    obtain ⟨s, h1, -⟩ := enum_aux hh hno hv flt fuel hf
    rw [hd] at h1
    cases h1
  · intro hd
    obtain ⟨recs, nets, junk, enc, hi⟩ := enumNew_inv hh flt
    have hover : Over [⟨0, [], w.networks, 0⟩] := ⟨_, List.mem_singleton.mpr rfl, by
      have := (tooDeep_iff hh.wf hh.pruned).mpr hd
      simp only
      omega⟩
    rcases drain_walk enc flt fuel _ _ hi rfl rfl (by simpa [toCome] using hf) with ⟨e', h1, h2, h3⟩ | ⟨-, h1⟩
    · exfalso
      cases hsome : (walkAll (matchNetwork flt) [⟨0, [], w.networks, 0⟩] (enumNew flt).address).2.isSome with
      | true => exact h2 hsome hover
      | false =>
        obtain ⟨n, hn, hs⟩ := h3 hsome
        have hn : n ∈ w.networks.networks := by simpa [toCome] using hn
        exact hv n hn ((stale_iff ((mem_networks_wf hh.wf).mp hn).1).mp hs)
    · exact h1

/-- More than 255 entries are needed only for a single address with at most one bit set. -/
theorem tooDeep_host {S : Network → Prop} (hS : ∀ n, S n → n.pfx ≤ 128) (h : TooDeep S) :
    ∃ n, S n ∧ IsHost n ∧ ∀ i j, bit n.first i = true → bit n.first j = true → i < 128 → j < 128 → i = j := by
  obtain ⟨n, hn, ks, h1, h2, h3⟩ := h
  have hle := hS n hn
  have hk : ∀ k ∈ ks, k < n.pfx ∧ bit n.first k = false := by
    intro k hk
    have := (h2 k hk).1
    unfold prefixBits at this
    rw [List.getElem?_map, Option.map_eq_some_iff] at this
    obtain ⟨i, h4, h5⟩ := this
    obtain ⟨h6, h7⟩ := List.getElem?_eq_some_iff.mp h4
    rw [List.length_range] at h6
    rw [List.getElem_range] at h7
    subst h7
    exact ⟨h6, h5⟩
  have hrange : ∀ k ∈ ks, k ∈ List.range n.pfx := fun k h => List.mem_range.mpr (hk k h).1
  have hlen := nodup_length_le h1 hrange
  rw [List.length_range] at hlen
  have h128 : n.pfx = 128 := by omega
  refine ⟨n, hn, h128, ?_⟩
  intro i j hi hj hi' hj'
  by_contra hne
  have hnd : (i :: j :: ks).Nodup := by
    rw [List.nodup_cons, List.nodup_cons]
    refine ⟨?_, ?_, h1⟩
    · rw [List.mem_cons, not_or]
      exact ⟨hne, fun hm => by rw [(hk i hm).2] at hi; cases hi⟩
    · exact fun hm => by rw [(hk j hm).2] at hj; cases hj
  have := nodup_length_le hnd (m := List.range n.pfx) (by
    intro k hm
    rw [List.mem_range, h128]
    rcases List.mem_cons.mp hm with rfl | hm
    · exact hi'
    · rcases List.mem_cons.mp hm with rfl | hm
      · exact hj'
      · have := (hk k hm).1; omega)
  simp at this
  omega

/-- An enumeration never writes outside of the stack if every stored single address has two bits set.  (So it does not
    in databases of IPv4 networks or without networks of one address.)  Missing: the other databases, for which it does
    not hold (`stack_overflow_violated`). -/
theorem stack_bounds_partial {K : Type} {ctz0 : Nat} (h0 : 8 ≤ ctz0) {key1 key2 : Option K} {ops : List (WOp K)} {e : WEnv K}
    {w : Writer K} {f : Bytes} (h : Written ctz0 key1 key2 ops e w f) {db : Db} (ho : dbOpen f = .ok db)
    (hs : ∀ n ∈ w.networks.networks, IsHost n → ∃ i j, i < j ∧ j < 128 ∧ bit n.first i = true ∧ bit n.first j = true)
    (flt : Filter) {fuel : Nat} (hf : w.networks.networks.length < fuel) :
    ∃ l b s, drain (nextNetwork db) fuel (enumNew flt) = .ok (l, b, s) := by
  obtain ⟨db', ho', hh⟩ := written_holds h0 h
  rw [ho] at ho'
  cases ho'
  obtain ⟨recs, nets, junk, enc, hi⟩ := enumNew_inv hh flt
  rcases drain_walk enc flt fuel _ _ hi rfl rfl (by simpa [toCome] using hf) with ⟨e', h1, h2⟩ | ⟨⟨p, hp, hov⟩, h1⟩
  · exact ⟨_, _, _, h1⟩
  · exfalso
    rw [List.mem_singleton] at hp
    subst hp
    simp only at hov
    have hd := (tooDeep_iff hh.wf hh.pruned).mp (by omega)
    obtain ⟨n, hn, hhost, hone⟩ := tooDeep_host (fun n hn => ((mem_networks_wf hh.wf).mp hn).1.le) hd
    obtain ⟨i, j, hij, hj, bi, bj⟩ := hs n hn hhost
    have := hone i j bi bj (by omega) hj
    omega

/-! ## C18 -/

theorem next_end (db : Db) (e : NetEnum) (h1 : e.nodes = []) (h2 : e.stack = []) : nextNetwork db e = .ok (.done, e) := by
  obtain ⟨flt, a, nodes, vis, stk, g6, g4⟩ := e
  simp only at h1 h2
  subst h1 h2
  rfl

theorem calls_net (db : Db) : ∀ (k : Nat) (e : NetEnum), GInv db e →
    (calls (nextNetwork db) k e ≠ .error .diverge) ∧ ∀ os s, calls (nextNetwork db) k e = .ok (os, s) → GInv db s ∧
      (os.filter (· ≠ .done)).length ≤ left db e ∧ (e.nodes = [] → e.stack = [] → ∀ x ∈ os, x = .done) ∧
      (∀ a b, os = a ++ .done :: b → ∀ x ∈ b, x = .done) := by
  intro k
  induction k with
  | zero =>
    intro e hi
    refine ⟨(by intro h; cases h), ?_⟩
    intro os s h
    cases h
    refine ⟨hi, by simp, by simp, ?_⟩
    intro a b h
    exact absurd (congrArg List.length h) (by simp)
  | succ k ih =>
    intro e hi
    obtain ⟨n1, n2⟩ := next_ends db true e hi
    rw [calls]
    cases hn : nextNetwork db e with
    | error y =>
      refine ⟨?_, fun os s h => (by cases h)⟩
      rw [show nextNetworkRaw db true e = nextNetwork db e from rfl, hn] at n1
      exact fun h => n1 (by cases h; rfl)
    | ok r =>
      obtain ⟨x, e1⟩ := r
      obtain ⟨g1, g2⟩ := n2 x e1 hn
      obtain ⟨c1, c2⟩ := ih e1 g1
      simp only
      cases hc : calls (nextNetwork db) k e1 with
      | error y =>
        rw [hc] at c1
        exact ⟨fun h => (by cases h; exact c1 rfl), fun os s h => (by cases h)⟩
      | ok r =>
        obtain ⟨os, s⟩ := r
        obtain ⟨d1, d2, d3, d4⟩ := c2 os s hc
        refine ⟨(by intro h; cases h), ?_⟩
        intro os' s' h
        cases h
        refine ⟨d1, ?_, ?_, ?_⟩
        · rcases g2 with ⟨rfl, g3, g4⟩ | ⟨g3, g4⟩
          · rw [List.filter_cons_of_neg (by simp)]
            have : os.filter (· ≠ .done) = [] := List.filter_eq_nil_iff.mpr (fun x hx => by rw [d3 g3 g4 x hx]; simp)
            rw [this]
            simp
          · rw [List.filter_cons_of_pos (by simpa using g3), List.length_cons]
            omega
        · intro e1n e1s
          have hdone : x = .done ∧ e1.nodes = [] ∧ e1.stack = [] := by
            have := next_end db e e1n e1s
            rw [hn] at this
            cases this
            exact ⟨rfl, e1n, e1s⟩
          intro y hy
          rcases List.mem_cons.mp hy with rfl | hy
          · exact hdone.1
          · exact d3 hdone.2.1 hdone.2.2 y hy
        · intro a b hab y hy
          cases a with
          | nil =>
            obtain ⟨rfl, rfl⟩ := List.cons.inj hab
            rcases g2 with ⟨-, g3, g4⟩ | ⟨g3, -⟩
            · exact d3 g3 g4 y hy
            · exact absurd rfl g3
          | cons z a =>
            obtain ⟨rfl, h5⟩ := List.cons.inj hab
            exact d4 a b h5 y hy

/-- Whatever the nodes of a database are (any graph, with cycles and shared nodes): no call of `next_network` runs for
    ever; however often it is called, it returns a network or an error at most once per node of the database, and
    nothing but the end after the end; no node is expanded twice. -/
theorem enumeration_terminates (db : Db) (flt : Filter) (k : Nat) :
    (calls (nextNetwork db) k (enumNew flt) ≠ .error .diverge) ∧
    ∀ os s, calls (nextNetwork db) k (enumNew flt) = .ok (os, s) →
      (os.filter (· ≠ .done)).length ≤ db.nodeCount ∧ (∀ a b, os = a ++ .done :: b → ∀ x ∈ b, x = .done) ∧
      s.visited.Nodup ∧ ∀ i ∈ s.visited, i < db.nodeCount := by
  obtain ⟨h1, h2⟩ := calls_net db k (enumNew flt) ⟨List.nodup_nil, fun i hi => (by cases hi)⟩
  refine ⟨h1, fun os s h => ?_⟩
  obtain ⟨g1, g2, -, g4⟩ := h2 os s h
  exact ⟨by simpa [left, enumNew] using g2, g4, g1.nodup, g1.range⟩

/-! ## Examples -/

/-- The sample database (10.0.0.0/8 and 10.1.0.0/16) meets the hypotheses: no network surrounds the IPv4 addresses, there
    is no single address. -/
theorem demo_plain : ∃ w f db, Written 32 none none demoOps demoEnv w f ∧ dbOpen f = .ok db ∧ w.networks.networks = [net10_8, net10_1_16] ∧
    ¬ TooDeep (· ∈ w.networks.networks) ∧ ∀ n ∈ w.networks.networks, ¬ AroundV4 n := by
  obtain ⟨w, f, db, h1, h2, h3⟩ := demo_file
  refine ⟨w, f, db, h1, h2, h3, ?_, ?_⟩
  · rw [h3]
    intro hd
    obtain ⟨n, hn, hh, -⟩ := tooDeep_host (S := (· ∈ [net10_8, net10_1_16])) (by decide) hd
    revert hh n
    unfold IsHost
    decide
  · rw [h3]
    unfold AroundV4
    decide

/-- Of these, an enumeration for Germany or AS 1 asks for 10.0.0.0/8 only, one for IPv6 for none. -/
example : FilterOk ⟨0, some [⟨68, 69, 0, 0, none⟩], some [⟨1, none⟩], 0⟩ ∧
    Wanted ⟨0, some [⟨68, 69, 0, 0, none⟩], some [⟨1, none⟩], 0⟩ net10_8 ∧
    ¬ Wanted ⟨0, some [⟨68, 69, 0, 0, none⟩], some [⟨1, none⟩], 0⟩ net10_1_16 ∧ ¬ Wanted ⟨10, none, none, 0⟩ net10_8 := by
  have hok : FilterOk ⟨0, some [⟨68, 69, 0, 0, none⟩], some [⟨1, none⟩], 0⟩ := by
    intro l hl c hc
    cases hl
    rw [List.mem_singleton] at hc
    subst hc
    decide
  refine ⟨hok, ⟨fun h => absurd rfl h, .inr (.inl ⟨_, rfl, _, List.mem_singleton.mpr rfl, by decide⟩)⟩, ?_, ?_⟩
  · rintro ⟨-, ⟨h, -⟩ | ⟨l, hl, c, hc, h⟩ | ⟨l, hl, c, hc, h⟩ | ⟨i, h, -⟩⟩
    · cases h
    · cases hl
      rw [List.mem_singleton] at hc
      subst hc
      revert h
      decide
    · cases hl
      rw [List.mem_singleton] at hc
      subst hc
      revert h
      decide
    · simp at h
  · rintro ⟨h, -⟩
    rcases h (by decide) with ⟨h, -⟩ | ⟨-, h⟩
    · revert h; decide
    · exact h (by unfold IsV4; decide)

/-! ## Violations -/

/-- The tree in the file that is written after the calls `ops`. -/
def treeStored (ops : List (WOp Unit)) : Option Tree :=
  match treeOf treeNew ops with
  | none => none
  | some t => match treeCleanup 32 demoEnv.reread t with
    | .error _ => none
    | .ok t => some t

theorem example_tree {ops : List (WOp Unit)} (hok : ∀ op ∈ ops, OpOk 32 op) (hnw : ∀ op ∈ ops, IsWrite op = false)
    (h : ((outcome demoEnv ops).map (·.1)).any (· < 2 ^ 32) = true) :
    ∃ w f db, Written 32 none none ops demoEnv w f ∧ dbOpen f = .ok db ∧ treeStored ops = some w.networks := by
  obtain ⟨w, f, hf, -⟩ := outcome_exists (e := demoEnv) rfl hok h
  obtain ⟨w0, s, sig1, sig2, tail, db, hw0, hv, -, -, -, hcl, -⟩ := written_view (by decide) hf
  refine ⟨w, f, db, hf, hv.opened, ?_⟩
  unfold treeStored
  rw [writes_tree hw0 hnw]
  simp only
  rw [show treeCleanup 32 demoEnv.reread w0.networks = .ok w.networks from hcl]

/-- ::7fff:0:0/96 -/
def net7fff : Network := { family := .inet6, first := #v[0,0,0,0, 0,0,0,0, 0,0,0x7f,0xff, 0,0,0,0], last := #v[0,0,0,0, 0,0,0,0, 0,0,0x7f,0xff, 0xff,0xff,0xff,0xff], pfx := 96, cc0 := 0, cc1 := 0, asn := 0, flags := 0 }
/-- ::8000:0:0/81 -/
def net8000 : Network := { family := .inet6, first := #v[0,0,0,0, 0,0,0,0, 0,0,0x80,0, 0,0,0,0], last := #v[0,0,0,0, 0,0,0,0, 0,0,0xff,0xff, 0xff,0xff,0xff,0xff], pfx := 81, cc0 := 0, cc1 := 0, asn := 0, flags := 0 }

def aroundOps : List (WOp Unit) := [.addNetwork net7fff, .addNetwork net8000]

theorem around_ok : ∀ op ∈ aroundOps, OpOk 32 op := by
  intro op h
  simp only [aroundOps, List.mem_cons, List.not_mem_nil, or_false] at h
  rcases h with rfl | rfl
  · exact .new (show newNetwork net7fff.first 96 = .ok net7fff by decide +kernel)
  · exact .new (show newNetwork net8000.first 81 = .ok net8000 by decide +kernel)

/-- In a database with ::7fff:0:0/96 and ::8000:0:0/81 the enumeration ends with an error after the first network. -/
theorem network_enumeration_violated : ∃ w f db, Written 32 none none aroundOps demoEnv w f ∧ dbOpen f = .ok db ∧
    w.networks.networks = [net7fff, net8000] ∧ ∀ fuel, 2 < fuel → ∃ s, drain (nextNetwork db) fuel (enumNew noFilter) = .ok ([net7fff], false, s) := by
  obtain ⟨w, f, db, h1, h2, h3⟩ := example_tree around_ok (by decide) (by decide +kernel)
  have k1 : (treeStored aroundOps).map Tree.networks = some [net7fff, net8000] := by decide +kernel
  have k2 : (treeStored aroundOps).map (fun t => (walkAll (matchNetwork noFilter) [⟨0, [], t, 0⟩] (enumNew noFilter).address).1) = some [net7fff] := by decide +kernel
  have k3 : (treeStored aroundOps).map (fun t => (walkAll (matchNetwork noFilter) [⟨0, [], t, 0⟩] (enumNew noFilter).address).2.isSome) = some false := by decide +kernel
  have k4 : (treeStored aroundOps).map (fun t => decide (need t ≤ 255)) = some true := by decide +kernel
  rw [h3] at k1 k2 k3 k4
  simp only [Option.map_some, Option.some.injEq, decide_eq_true_eq] at k1 k2 k3 k4
  refine ⟨w, f, db, h1, h2, k1, fun fuel hf => ?_⟩
  obtain ⟨db', ho', hh⟩ := written_holds (by decide) h1
  rw [h2] at ho'
  cases ho'
  obtain ⟨recs, nets, junk, enc, hi⟩ := enumNew_inv hh noFilter
  rcases drain_walk enc noFilter fuel _ _ hi rfl rfl (by simp [toCome, k1]; omega) with ⟨e', h1, -⟩ | ⟨⟨p, hp, hov⟩, -⟩
  · rw [k2, k3] at h1
    exact ⟨_, h1⟩
  · rw [List.mem_singleton] at hp
    subst hp
    simp only at hov
    omega

/-- All positions but 80 (::8000:0:0/81 is of the kind `AroundV4`). -/
def combs : List Nat := (List.range 128).filter (· ≠ 80)

/-- The network whose bits are `k` zeros and a one, with AS number `k`. -/
def comb (k : Nat) : Network :=
  match newNetwork (setBit (Vector.replicate 16 0) k true) (k + 1) with
  | .ok n => setAsn n (BitVec.ofNat 32 k)
  | .error _ => net8000

/-- ::/128 -/
def hostZero : Network := { family := .inet6, first := Vector.replicate 16 0, last := Vector.replicate 16 0, pfx := 128, cc0 := 0, cc1 := 0, asn := 4000, flags := 0 }

def combOps : List (WOp Unit) := .addNetwork hostZero :: combs.map fun k => .addNetwork (comb k)

theorem comb_new : ∀ k < 128, ∃ n, newNetwork (setBit (Vector.replicate 16 0) k true) (k + 1) = .ok n := by
  have h : ∀ k < 128, (match newNetwork (setBit (Vector.replicate 16 0) k true) (k + 1) with | .ok _ => true | .error _ => false) = true := by
    decide +kernel
  intro k hk
  have := h k hk
  cases hn : newNetwork (setBit (Vector.replicate 16 0) k true) (k + 1) with
  | ok n => exact ⟨n, rfl⟩
  | error e => rw [hn] at this; cases this

theorem comb_lt : ∀ k ∈ combs, k < 128 := fun k hk => List.mem_range.mp (List.mem_filter.mp hk).1

theorem comb_ok : ∀ op ∈ combOps, OpOk 32 op := by
  intro op h
  rw [combOps, List.mem_cons, List.mem_map] at h
  rcases h with rfl | ⟨k, hk, rfl⟩
  · exact .asn 4000 (.new (show newNetwork (Vector.replicate 16 0) 128 = .ok { hostZero with asn := 0 } by decide +kernel))
  · obtain ⟨n, hn⟩ := comb_new k (comb_lt k hk)
    show Built 32 (comb k)
    unfold comb
    rw [hn]
    exact .asn _ (.new hn)

theorem comb_nowrite : ∀ op ∈ combOps, IsWrite op = false := by
  intro op h
  rw [combOps, List.mem_cons, List.mem_map] at h
  rcases h with rfl | ⟨k, hk, rfl⟩ <;> rfl

theorem comb_length : ((outcome demoEnv combOps).map (·.1)).any (· < 2 ^ 32) = true := by decide +kernel

theorem comb_stored : storedOf combOps = some (hostZero :: (combs.map comb).reverse) := by decide +kernel

theorem comb_file : ∃ w f db, Written 32 none none combOps demoEnv w f ∧ dbOpen f = .ok db ∧
    w.networks.networks = hostZero :: (combs.map comb).reverse := example_file comb_ok comb_nowrite comb_length comb_stored

/-- Enumerating a database with ::/128 and the networks 8000::/1, 4000::/2, ..., ::1/128 (without ::8000:0:0/81) writes outside of the
    stack. -/
theorem stack_overflow_violated : ∃ w f db, Written 32 none none combOps demoEnv w f ∧ dbOpen f = .ok db ∧
    ∀ fuel, 128 < fuel → drain (nextNetwork db) fuel (enumNew noFilter) = .error .oob := by
  obtain ⟨w, f, db, h1, h2, h3⟩ := comb_file
  have hmem : ∀ n ∈ w.networks.networks, n = hostZero ∨ ∃ k ∈ combs, n = comb k := by
    intro n hn
    rw [h3, List.mem_cons, List.mem_reverse, List.mem_map] at hn
    rcases hn with rfl | ⟨k, hk, rfl⟩
    · exact .inl rfl
    · exact .inr ⟨k, hk, rfl⟩
  have hcomb : ∀ k < 128, (prefixBits hostZero)[k]? = some false ∧ (prefixBits hostZero).take k ++ [true] <+: prefixBits (comb k) := by
    decide +kernel
  have haround : ∀ k ∈ combs, ¬ (81 ≤ (comb k).pfx ∧ (comb k).pfx ≤ 95 ∧ value (comb k).first ≤ 0xffff00000000 ∧ 0xffffffffffff ≤ value (comb k).last) := by
    decide +kernel
  refine ⟨w, f, db, h1, h2, fun fuel hf => (stack_overflow_iff (by decide) h1 h2 ?_ noFilter ?_).mpr ?_⟩
  · intro n hn
    rcases hmem n hn with rfl | ⟨k, hk, rfl⟩
    · unfold AroundV4; decide +kernel
    · exact haround k hk
  · rw [h3, List.length_cons, List.length_reverse, List.length_map, show combs.length = 127 by decide +kernel]; omega
  · refine ⟨hostZero, by rw [h3]; exact List.mem_cons_self .., combs, List.nodup_range.filter _, ?_, by decide +kernel⟩
    intro k hk
    have hlt := comb_lt k hk
    refine ⟨(hcomb k hlt).1, comb k, ?_, (hcomb k hlt).2⟩
    rw [h3]
    exact List.mem_cons_of_mem _ (List.mem_reverse.mpr (List.mem_map_of_mem hk))

end Loc.Props
