import Verif.Props.Keys
import Verif.Props.Agree
import Verif.Props.Again
/-
C96: copying a database network by network.
-/
namespace Loc
open Spec

/-- Every node but the root has a network at or below it. -/
theorem pruned_of_ex {t : Tree} : ∀ {p : List Bool}, Good p t → (∀ u, ex t u = true → ∃ v n, look t (u ++ v) = some n) → Pruned t := by
  induction t with
  | nil => intro _ _ _; trivial
  | node d net z o ihz iho =>
    intro p hg h
    obtain ⟨g1, g2, g3, gz, go⟩ := hg
    obtain ⟨v, n, hv⟩ := h [] rfl
    rw [List.nil_append] at hv
    have sub : ∀ {b : Bool} {s : Tree}, (∀ u, ex (.node d net z o) (b :: u) = ex s u) → (∀ u, look (.node d net z o) (b :: u) = look s u) →
        ∀ u, ex s u = true → ∃ v n, look s (u ++ v) = some n := by
      intro b s he hl u hu
      obtain ⟨v, n, hvn⟩ := h (b :: u) ((he u).trans hu)
      exact ⟨v, n, (hl _).symm.trans hvn⟩
    refine ⟨?_, ?_, ihz gz (sub (b := false) (fun _ => rfl) fun _ => rfl), iho go (sub (b := true) (fun _ => rfl) fun _ => rfl)⟩
    · cases d with
      | false => rfl
      | true =>
        obtain ⟨rfl, rfl, rfl⟩ := g2 rfl
        cases v with
        | nil => cases hv
        | cons b v => cases b <;> simp [look] at hv
    · cases v with
      | nil =>
        left
        have : look (.node d net z o) [] = net := rfl
        rw [this] at hv
        rw [hv]; rfl
      | cons b v =>
        right
        cases b with
        | false => left; rintro rfl; simp [look] at hv
        | true => right; rintro rfl; simp [look] at hv

theorem prunedRoot_of_ex {t : Tree} (hw : WF t) (h : ∀ u, u ≠ [] → ex t u = true → ∃ v n, look t (u ++ v) = some n) : PrunedRoot t := by
  obtain ⟨hg, ha⟩ := hw
  cases t with
  | nil => exact absurd ha (by simp [Alive])
  | node d net z o =>
    obtain ⟨g1, g2, g3, gz, go⟩ := hg
    have hd : d = false := by cases d <;> simp_all [Alive]
    refine ⟨hd, pruned_of_ex gz ?_, pruned_of_ex go ?_⟩
    · intro u hu
      obtain ⟨v, n, hv⟩ := h (false :: u) (by simp) hu
      exact ⟨v, n, hv⟩
    · intro u hu
      obtain ⟨v, n, hv⟩ := h (true :: u) (by simp) hu
      exact ⟨v, n, hv⟩

/-- A tree to which networks have been added and nothing else. -/
structure Holding (l : List Network) (t : Tree) : Prop where
  wf : WF t
  sound : ∀ u n, look t u = some n → n ∈ l
  complete : ∀ n ∈ l, look t (path n) = some n
  nodes : ∀ u, u ≠ [] → ex t u = true → ∃ v n, look t (u ++ v) = some n

theorem holding_new : Holding [] treeNew :=
  ⟨(Props.reach_wf 8 (Nat.le_refl _) .new).1, by
    intro u n h
    cases u with
    | nil => cases h
    | cons b u => cases b <;> simp [treeNew, Tree.fresh, look] at h,
    by simp, by
    intro u hu h
    cases u with
    | nil => exact absurd rfl hu
    | cons b u => cases b <;> simp [treeNew, Tree.fresh, ex] at h⟩

theorem holding_add {l : List Network} {t t' : Tree} {n : Network} {r : Nat} (h : Holding l t) (hn : Block n)
    (hl : ∀ m ∈ l, path m ≠ path n) (ha : treeAdd t n = .ok (r, t')) : Holding (l ++ [n]) t' := by
  obtain ⟨t1, w1, x1, ⟨hnone, e1, l1⟩ | ⟨m, hm, -⟩⟩ := treeAdd_spec h.wf hn
  · rw [ha] at e1
    cases e1
    refine ⟨w1, ?_, ?_, ?_⟩
    · intro u m hm
      rw [l1] at hm
      split at hm
      · cases hm; simp
      · exact List.mem_append_left _ (h.sound u m hm)
    · intro m hm
      rw [l1]
      rcases List.mem_append.mp hm with hm | hm
      · rw [if_neg (hl m hm)]; exact h.complete m hm
      · rw [List.mem_singleton.mp hm, if_pos rfl]
    · intro u hu hex
      rw [x1, Bool.or_eq_true] at hex
      rcases hex with hex | hex
      · obtain ⟨v, m, hv⟩ := h.nodes u hu hex
        by_cases he : u ++ v = path n
        · rw [he, hnone] at hv; cases hv
        · exact ⟨v, m, by rw [l1, if_neg he]; exact hv⟩
      · obtain ⟨v, hv⟩ := of_decide_eq_true hex
        exact ⟨v, n, by rw [l1, if_pos hv]⟩
  · exfalso
    obtain ⟨-, hp⟩ := look_block h.wf hm
    exact hl m (h.sound _ _ hm) hp

/-- Adding a list of different networks -/
theorem holding_run {K : Type} : ∀ (l done : List Network) {w w' : Writer K}, Holding done w.networks → (∀ n ∈ l, Block n) →
    (done ++ l).Pairwise (fun m n => path m ≠ path n) → wrun w (l.map .addNetwork) = .ok w' → Holding (done ++ l) w'.networks
  | [], done, w, w', h, _, _, hr => by cases hr; rw [List.append_nil]; exact h
  | n :: l, done, w, w', h, hb, hp, hr => by
    rw [List.map_cons] at hr
    unfold wrun at hr
    simp only [wstep, addNetwork] at hr
    cases ht : treeAdd w.networks n with
    | error x => rw [ht] at hr; cases hr
    | ok r =>
      obtain ⟨r, t⟩ := r
      rw [ht] at hr
      simp only at hr
      have hnew : Holding (done ++ [n]) t := holding_add h (hb n (List.mem_cons_self ..)) (by
        intro m hm
        exact (List.pairwise_append.mp hp).2.2 m hm n (List.mem_cons_self ..)) ht
      have := holding_run l (done ++ [n]) (w := { w with networks := t }) hnew (fun m hm => hb m (List.mem_cons_of_mem _ hm))
        (by rw [List.append_assoc]; exact hp) hr
      rw [List.append_assoc] at this
      exact this

/-- Calls that have nothing to do with networks. -/
def OtherCall {K : Type} : WOp K → Prop
  | .addNetwork _ => False
  | .changeNetwork _ _ => False
  | .write _ _ _ => False
  | _ => True

theorem other_run {K : Type} : ∀ (ops : List (WOp K)) {w w' : Writer K}, (∀ op ∈ ops, OtherCall op) → wrun w ops = .ok w' → w'.networks = w.networks
  | [], _, _, _, h => by cases h; rfl
  | op :: ops, w, w', ho, h => by
    unfold wrun at h
    have hop := ho op (List.mem_cons_self ..)
    cases hs : wstep w op with
    | error x => rw [hs] at h; cases h
    | ok w1 =>
      rw [hs] at h
      rw [other_run ops (fun o h => ho o (List.mem_cons_of_mem _ h)) h]
      unfold wstep at hs
      cases op with
      | vendor s =>
        simp only [setVendor] at hs
        split at hs
        · cases hs; rfl
        · rename_i hne
          cases s with
          | none => cases hs
          | some s =>
            simp only at hs
            split at hs <;> cases hs
            rfl
      | description s =>
        simp only [setDescription] at hs
        split at hs
        · cases hs; rfl
        · cases s with
          | none => cases hs
          | some s =>
            simp only at hs
            split at hs <;> cases hs
            rfl
      | license s =>
        simp only [setLicense] at hs
        split at hs
        · cases hs; rfl
        · cases s with
          | none => cases hs
          | some s =>
            simp only at hs
            split at hs <;> cases hs
            rfl
      | addAs k s => cases hs; rfl
      | renameAs k s => cases hs; rfl
      | addCountry code cont name =>
        simp only [addCountry] at hs
        split at hs
        · cases hs; rfl
        · split at hs <;> cases hs
          rfl
      | addNetwork n => exact hop.elim
      | changeNetwork n n' => exact hop.elim
      | write e old v => exact hop.elim

theorem holding_ext {l : List Network} {t s : Tree} (ht : Holding l t) (hs : Holding l s) : look t = look s := by
  funext u
  have key : ∀ {t s : Tree}, Holding l t → Holding l s → ∀ n, look t u = some n → look s u = some n := by
    intro t s ht hs n hn
    rw [← (look_block ht.wf hn).2]
    exact hs.complete n (ht.sound u n hn)
  cases h1 : look t u with
  | some n => rw [key ht hs n h1]
  | none =>
    cases h2 : look s u with
    | none => rfl
    | some n => rw [key hs ht n h2] at h1; cases h1

/-- A pruned tree holds its networks. -/
theorem holding_self {t : Tree} (hw : WF t) (hp : PrunedRoot t) : Holding t.networks t := by
  refine ⟨hw, ?_, fun n hn => ((mem_networks_wf hw).mp hn).2, ?_⟩
  · intro u n h
    obtain ⟨hb, rfl⟩ := look_block hw h
    exact (mem_networks_wf hw).mpr ⟨hb, h⟩
  · intro u hu hex
    cases t with
    | nil => exact hp.elim
    | node d net z o =>
      cases u with
      | nil => exact absurd rfl hu
      | cons b u =>
        cases b with
        | false => exact pruned_ex hp.2.1 u hex
        | true => exact pruned_ex hp.2.2 u hex

theorem networks_paths {t : Tree} (hw : WF t) : t.networks.Pairwise (fun m n => path m ≠ path n) := by
  refine (networks_ascending hw.1).imp_of_mem fun {m n} hm hn hlt he => ?_
  obtain ⟨h1, h2⟩ := (sameBlock_iff_path ((mem_networks_wf hw).mp hm).1 ((mem_networks_wf hw).mp hn).1).mpr he
  rcases hlt with h | h <;> omega

/-- The tree of a writer to which the networks of a pruned tree were added is that tree. -/
theorem copied_tree {K : Type} {ctz0 : Nat} {key1 key2 : Option K} {pre post : List (WOp K)} {t : Tree} (hw : WF t) (hp : PrunedRoot t)
    (hpre : ∀ op ∈ pre, OtherCall op) (hpost : ∀ op ∈ post, OtherCall op) {w : Writer K}
    (h : Writes ctz0 key1 key2 (pre ++ t.networks.map .addNetwork ++ post) w) : w.networks = t := by
  obtain ⟨-, w0, hn, hr⟩ := h
  rw [List.append_assoc, wrun_append] at hr
  cases h1 : wrun w0 pre with
  | error x => rw [h1] at hr; cases hr
  | ok w1 =>
    rw [h1] at hr
    simp only at hr
    rw [wrun_append] at hr
    cases h2 : wrun w1 (t.networks.map .addNetwork) with
    | error x => rw [h2] at hr; cases hr
    | ok w2 =>
      rw [h2] at hr
      simp only at hr
      have e0 : w0.networks = treeNew := by
        unfold writerNew at hn
        split at hn
        · cases hn
        · cases hn; rfl
      have hh := holding_run t.networks [] (w := w1) (w' := w2) (by rw [other_run pre hpre h1, e0]; exact holding_new)
        (fun n hn => ((mem_networks_wf hw).mp hn).1) (networks_paths hw) h2
      rw [List.nil_append] at hh
      rw [other_run post hpost hr]
      exact prunedRoot_ext (prunedRoot_of_ex hh.wf hh.nodes) hp (holding_ext hh (holding_self hw hp))

end Loc

namespace Loc.Props
open Loc Loc.Spec

/-- The networks which an enumeration returns, if it ends without an error. -/
theorem drained_list {K : Type} {ctz0 : Nat} (h0 : 8 ≤ ctz0) {key1 key2 : Option K} {ops : List (WOp K)} {e : WEnv K}
    {w : Writer K} {f : Bytes} (h : Written ctz0 key1 key2 ops e w f) {db : Db} (ho : dbOpen f = .ok db)
    {fuel : Nat} (hf : w.networks.networks.length < fuel) {found : List Network} {s : NetEnum}
    (hd : drain (nextNetwork db) fuel (enumNew noFilter) = .ok (found, true, s)) : found = w.networks.networks.map readBack := by
  obtain ⟨db', ho', hh⟩ := written_holds h0 h
  rw [ho] at ho'
  cases ho'
  obtain ⟨recs, nets, junk, enc, hi⟩ := enumNew_inv hh noFilter
  have htc : toCome [⟨0, [], w.networks, 0⟩] = w.networks.networks := by simp [toCome]
  rcases drain_sound enc noFilter fuel _ _ hi rfl rfl (by rw [htc]; exact hf) with ⟨-, h1⟩ | ⟨s, h1, -⟩ | ⟨s, pre, n, post, h1, -, -⟩
  · rw [h1] at hd; cases hd
  · rw [h1, htc] at hd
    cases hd
    rw [List.filter_eq_self (p := matchNetwork noFilter) |>.mpr (fun m _ => rfl)]
  · rw [h1] at hd; cases hd

/-- Nothing is lost when the network is stored: the flags fit into 16 bits, and there is no second letter of a country
    without a first one. -/
def Storable (n : Network) : Prop := n.flags.toNat < 2 ^ 16 ∧ (n.cc0 = 0 → n.cc1 = 0)

instance (n : Network) : Decidable (Storable n) := inferInstanceAs (Decidable (_ ∧ _))

theorem readBack_storable {n : Network} (h : Storable n) : readBack n = n := by
  unfold readBack
  rw [Nat.mod_eq_of_lt h.1]
  have : (if n.cc0 = 0 then 0 else n.cc1) = n.cc1 := by
    split
    · rename_i h0; exact (h.2 h0).symm
    · rfl
  rw [this]
  simp

/-! ## C96 -/

/-- C96, proved part: a new database to which all networks are added that an enumeration of a written database returns,
    besides other data, has the same networks, and every lookup in it gives the same answer.  Assumed: no IPv6 network
    with IPv4 addresses in it was added, all halves were joined when the first database was written (see C84), and
    nothing is lost when the networks are stored. -/
theorem copy_same_partial {K : Type} {ctz0 : Nat} (h0 : 8 ≤ ctz0) {key1 key2 key1' key2' : Option K} {ops pre post : List (WOp K)}
    {e e' : WEnv K} {w w1 w2 : Writer K} {old f f' : Bytes} {version : Nat} (h : Writes ctz0 key1 key2 ops w) (he : e.ctz0 = ctz0)
    (hw : writerWrite e w old version = .ok (w1, some f)) (hlen : f.length < 2 ^ 32)
    (hv : ∀ n ∈ w.networks.networks, ¬ HoldsIPv4 n) (hj : AllJoined w1.networks.networks) (hs : ∀ n ∈ w1.networks.networks, Storable n)
    {db db' : Db} (ho : dbOpen f = .ok db) {fuel : Nat} (hf : w1.networks.networks.length < fuel) {found : List Network} {s : NetEnum}
    (hd : drain (nextNetwork db) fuel (enumNew noFilter) = .ok (found, true, s))
    (hpre : ∀ op ∈ pre, OtherCall op) (hpost : ∀ op ∈ post, OtherCall op)
    (hc : Written ctz0 key1' key2' (pre ++ found.map .addNetwork ++ post) e' w2 f') (ho' : dbOpen f' = .ok db') :
    w2.networks.networks = w1.networks.networks ∧ ∀ a, lookup db' a = lookup db a := by
  have hwr : Written ctz0 key1 key2 ops e w1 f := ⟨w, old, version, h, he, hw, hlen⟩
  have hfound : found = w1.networks.networks := by
    rw [drained_list h0 hwr ho hf hd]
    conv => rhs; rw [← List.map_id w1.networks.networks]
    exact List.map_congr_left fun n hn => readBack_storable (hs n hn)
  subst hfound
  obtain ⟨db1, o1, hh⟩ := written_holds h0 hwr
  rw [ho] at o1
  cases o1
  have hcl : treeCleanup ctz0 e.reread w.networks = .ok w1.networks := by
    rcases writerWrite_cases hw with ⟨-, hx⟩ | ⟨s, w3, hs3, ⟨-, hx⟩ | ⟨sig1, len1, sig2, len2, msg, rest, -, -, -, -, hw1, -⟩⟩
    · cases hx
    · cases hx
    · rw [hw1]
      unfold writeSections at hs3
      simp only at hs3
      split at hs3
      · cases hs3
      split at hs3
      · cases hs3
      rename_i t htc
      split at hs3
      · cases hs3
      split at hs3
      · cases hs3
      cases hs3
      rw [he] at htc
      exact htc
  have hec : e'.ctz0 = ctz0 := Written.ctz hc
  obtain ⟨wc, s', sig1, sig2, tail, dbc, hwc, -, -, -, -, hclc, -⟩ := written_view h0 hc
  have ht := copied_tree hh.wf hh.pruned hpre hpost hwc
  rw [hec, ht, cleanup_again_partial ctz0 h0 (winv h).reach hcl hv hj] at hclc
  have hn : w1.networks = w2.networks := Except.ok.inj hclc
  obtain ⟨db2, o2, hh2⟩ := written_holds h0 hc
  rw [ho'] at o2
  cases o2
  refine ⟨by rw [hn], fun a => ?_⟩
  rw [← hn] at hh2
  exact lookup_same hh2 hh a

/-- The networks an enumeration returns can be added to a writer: such networks can also be made by the other functions
    of the library. -/
theorem copy_allowed (ctz0 : Nat) {n : Network} (hb : Block n) (hc : CountryOk n) (hs : Storable n) : Built ctz0 n := by
  have hfs := famStart_first hb
  obtain ⟨k, k1, k2, k3, k4, k5, k6, k7, k8, k9⟩ := newNetwork_ok n.first (netPrefix n) (by rw [hfs]; exact hb.le)
  have hk : path k = path n := by rw [k4, hfs]; rfl
  obtain ⟨e1, e2⟩ := (sameBlock_iff_path k2 hb).mpr hk
  have e1 := value_inj e1
  have hlast : k.last = n.last := value_inj (by rw [k2.last_eq, hb.last_eq, e1, e2])
  have hfam : k.family = n.family := by
    have a := k2.fam
    have b := hb.fam
    rw [e1] at a
    cases hx : k.family <;> cases hy : n.family <;> simp_all
  have hbuilt : Built ctz0 k := .new k1
  have fin : ∀ {k' : Network}, Built ctz0 k' → k' = { n with asn := 0, flags := 0 } → Built ctz0 n := by
    rintro k' h rfl
    have := Built.flag n.flags (Built.asn n.asn h)
    have e : setFlag (setAsn { n with asn := 0, flags := 0 } n.asn) n.flags = n := by
      simp [setFlag, setAsn]
    rw [e] at this
    exact this
  rcases hc with h | h
  · refine fin hbuilt ?_
    obtain ⟨f, a, b, p, c0, c1, x, y⟩ := n
    obtain ⟨f', a', b', p', c0', c1', x', y'⟩ := k
    simp only at *
    subst h
    have h1 : c1 = 0 := hs.2 rfl
    subst h1
    simp_all
  · have hcc : setCountryCode k (some [n.cc0, n.cc1]) = .ok { k with cc0 := n.cc0, cc1 := n.cc1 } := by
      unfold setCountryCode
      simp only [(ccIsValid_iff _).mpr h, Bool.not_true, Bool.false_eq_true, if_false]
    refine fin (.country hbuilt hcc) ?_
    obtain ⟨f, a, b, p, c0, c1, x, y⟩ := n
    obtain ⟨f', a', b', p', c0', c1', x', y'⟩ := k
    simp_all

/-! ### witnesses -/

/-- 10.0.0.0/9 of AS 1, its halves without an AS, 10.128.0.0/9 of AS 1 -/
def copyOps : List (WOp Unit) := [.addNetwork j9, .addNetwork j10, .addNetwork j10', .addNetwork j9']
/-- 10.0.0.0/9 -/
def j9bare : Network := { j9 with asn := 0 }

theorem copy_first : ∃ w f db, Written 32 none none copyOps demoEnv w f ∧ dbOpen f = .ok db ∧ w.networks.networks = [j8, j10, j10'] ∧
    ¬ TooDeep (· ∈ w.networks.networks) ∧ ∀ n ∈ w.networks.networks, ¬ AroundV4 n :=
  bogon_file (by
    intro op hop
    simp only [copyOps, List.mem_cons, List.not_mem_nil, or_false] at hop
    rcases hop with rfl | rfl | rfl | rfl
    · exact j9_built 32
    · exact j10_built 32
    · exact j10'_built 32
    · exact j9'_built 32) (by decide) (by decide +kernel) (by decide +kernel) (by decide) (by unfold AroundV4; decide +kernel)

theorem copy_second : ∃ w f db, Written 32 none none ([j8, j10, j10'].map WOp.addNetwork) demoEnv w f ∧ dbOpen f = .ok db ∧
    w.networks.networks = [j8, j9bare] ∧ ¬ TooDeep (· ∈ w.networks.networks) ∧ ∀ n ∈ w.networks.networks, ¬ AroundV4 n :=
  bogon_file (by
    intro op hop
    simp only [List.map_cons, List.map_nil, List.mem_cons, List.not_mem_nil, or_false] at hop
    rcases hop with rfl | rfl | rfl
    · exact copy_allowed 32 (by decide +kernel) (.inl rfl) (by decide)
    · exact j10_built 32
    · exact j10'_built 32) (by decide) (by decide +kernel) (by decide +kernel) (by decide) (by unfold AroundV4; decide +kernel)

/-- The code violates the claim: the halves 10.0.0.0/10 and 10.64.0.0/10 which were left when the first database was
    written are joined when the copy is written, so that the lookup of 10.0.0.1 returns another network. -/
theorem copy_same_violated : ∃ w f db found s w' f' db' m m', Written 32 none none copyOps demoEnv w f ∧ dbOpen f = .ok db ∧
    drain (nextNetwork db) 4 (enumNew noFilter) = .ok (found, true, s) ∧
    Written 32 none none (found.map WOp.addNetwork) demoEnv w' f' ∧ dbOpen f' = .ok db' ∧
    lookup db (ip4 10 0 0 1) = .ok (.ok (some m)) ∧ lookup db' (ip4 10 0 0 1) = .ok (.ok (some m')) ∧ m.pfx = 106 ∧ m'.pfx = 105 := by
  obtain ⟨w, f, db, h1, h2, h3, h4, h5⟩ := copy_first
  obtain ⟨w', f', db', g1, g2, g3, -, -⟩ := copy_second
  obtain ⟨l, hl, -⟩ := network_enumeration_partial (by decide) h1 h2 h4 h5
  have hlist : l = [j8, j10, j10'] := by
    obtain ⟨s, hs, -⟩ := hl (l.length + 4) (by omega)
    have := drained_list (by decide) h1 h2 (fuel := l.length + 4) (by rw [h3]; simp) hs
    rw [this, h3]; decide
  obtain ⟨s, hs, -⟩ := hl 4 (by rw [hlist]; decide)
  rw [hlist] at hs
  have look1 : LongestPrefixMatch (· ∈ w.networks.networks) db (ip4 10 0 0 1) := by
    apply lookup_longest_prefix_partial (by decide) h1 h2
    · rw [h3]; decide +kernel
    · rw [h3]
      have key : ∀ k ∈ [j8, j10, j10'], (∀ m ∈ [j8, j10, j10'], Contains m (ip4 10 0 0 1) → m.pfx ≤ k.pfx) →
          ¬ (k.pfx = 95 ∧ IsV4 (ip4 10 0 0 1)) ∧ ∀ m ∈ [j8, j10, j10'], k.pfx < m.pfx →
            ¬ value m.first / 2 ^ (128 - (k.pfx + 1)) = value (ip4 10 0 0 1) / 2 ^ (128 - (k.pfx + 1)) := by
        decide +kernel
      rintro k ⟨k1, k2, k3⟩
      exact key k k1 k3
  have look2 : LongestPrefixMatch (· ∈ w'.networks.networks) db' (ip4 10 0 0 1) := by
    apply lookup_longest_prefix_partial (by decide) g1 g2
    · rw [g3]; decide +kernel
    · rw [g3]
      have key : ∀ k ∈ [j8, j9bare], (∀ m ∈ [j8, j9bare], Contains m (ip4 10 0 0 1) → m.pfx ≤ k.pfx) →
          ¬ (k.pfx = 95 ∧ IsV4 (ip4 10 0 0 1)) ∧ ∀ m ∈ [j8, j9bare], k.pfx < m.pfx →
            ¬ value m.first / 2 ^ (128 - (k.pfx + 1)) = value (ip4 10 0 0 1) / 2 ^ (128 - (k.pfx + 1)) := by
        decide +kernel
      rintro k ⟨k1, k2, k3⟩
      exact key k k1 k3
  obtain ⟨r, r1, r2, -⟩ := look1
  obtain ⟨q, q1, q2, -⟩ := look2
  rw [h3] at r2
  rw [g3] at q2
  obtain ⟨m, rfl, hm⟩ := r2 j10 ⟨by decide, by decide +kernel, by
    have : ∀ m ∈ [j8, j10, j10'], Contains m (ip4 10 0 0 1) → m.pfx ≤ j10.pfx := by decide +kernel
    exact this⟩
  obtain ⟨m', rfl, hm'⟩ := q2 j9bare ⟨by decide, by decide +kernel, by
    have : ∀ m ∈ [j8, j9bare], Contains m (ip4 10 0 0 1) → m.pfx ≤ j9bare.pfx := by decide +kernel
    exact this⟩
  exact ⟨w, f, db, _, s, w', f', db', m, m', h1, h2, hs, g1, g2, r1, q1, hm.2, hm'.2⟩

/-- 10.0.0.0/8 and 10.1.0.0/16 -/
def nestedOps : List (WOp Unit) := [.addNetwork net10_8, .addNetwork net10_1_16]

theorem nested_ok : ∀ op ∈ nestedOps, OpOk 32 op := fun op hop => demo_ok op (by
  simp only [nestedOps, List.mem_cons, List.not_mem_nil, or_false] at hop
  rcases hop with rfl | rfl <;> simp [demoOps])

/-- A case that meets the assumptions; the copy also has a vendor. -/
example : ∃ w old version w1 f db found s w2 f' db', Writes 32 none none nestedOps w ∧
    writerWrite demoEnv w old version = .ok (w1, some f) ∧ f.length < 2 ^ 32 ∧
    (∀ n ∈ w.networks.networks, ¬ HoldsIPv4 n) ∧ AllJoined w1.networks.networks ∧ (∀ n ∈ w1.networks.networks, Storable n) ∧
    dbOpen f = .ok db ∧ drain (nextNetwork db) 3 (enumNew noFilter) = .ok (found, true, s) ∧ found = [net10_8, net10_1_16] ∧
    Written 32 none none ([.vendor (some [120])] ++ found.map WOp.addNetwork ++ []) demoEnv w2 f' ∧ dbOpen f' = .ok db' := by
  have hnw : ∀ op ∈ nestedOps, IsWrite op = false := by decide
  obtain ⟨w1, f, db, h1, h2, h3, h4, h5⟩ := bogon_file (ops := nestedOps) (l := [net10_8, net10_1_16]) nested_ok hnw
    (by decide +kernel) (by decide +kernel) (by decide) (by unfold AroundV4; decide +kernel)
  obtain ⟨w2, f', db', g1, g2, -⟩ := bogon_file (ops := [.vendor (some [120])] ++ [net10_8, net10_1_16].map WOp.addNetwork ++ [])
    (l := [net10_8, net10_1_16]) (by
      intro op hop
      simp only [List.map_cons, List.map_nil, List.append_nil, List.cons_append, List.nil_append, List.mem_cons, List.not_mem_nil, or_false] at hop
      rcases hop with rfl | hop
      · exact strOk_some _ (by decide)
      · exact nested_ok op (by simpa [nestedOps] using hop)) (by decide)
    (by decide +kernel) (by decide +kernel) (by decide) (by unfold AroundV4; decide +kernel)
  obtain ⟨l, hl, -⟩ := network_enumeration_partial (by decide) h1 h2 h4 h5
  have hlist : l = [net10_8, net10_1_16] := by
    obtain ⟨s, hs, -⟩ := hl (l.length + 4) (by omega)
    have := drained_list (by decide) h1 h2 (fuel := l.length + 4) (by rw [h3]; simp) hs
    rw [this, h3]; decide
  obtain ⟨s, hs, -⟩ := hl 3 (by rw [hlist]; decide)
  obtain ⟨w, old, version, hw, he, hwr, hlen⟩ := h1
  refine ⟨w, old, version, w1, f, db, l, s, w2, f', db', hw, hwr, hlen, ?_, ?_, ?_, h2, hs, hlist, by rw [hlist]; exact g1, g2⟩
  · have ht := writes_tree hw hnw
    have hn : (treeOf treeNew nestedOps).map Tree.networks = some [net10_8, net10_1_16] := by decide +kernel
    rw [ht] at hn
    have hn : w.networks.networks = [net10_8, net10_1_16] := Option.some.inj hn
    rw [hn]
    intro n hm h4
    have h5 := h4.1
    have : ∀ n ∈ [net10_8, net10_1_16], n.family = .inet := by decide
    rw [this n hm] at h5
    cases h5
  · rw [h3]
    intro a b m ha hb hh
    obtain ⟨-, e1, e2, -, -, hbef⟩ := hh
    have : ∀ a ∈ [net10_8, net10_1_16], ∀ b ∈ [net10_8, net10_1_16], a.pfx = b.pfx → a = b := by decide
    have hab := this a ha b hb (e1.trans e2.symm)
    subst hab
    rcases hbef with h | ⟨-, h⟩ <;> exact absurd h (Nat.lt_irrefl _)
  · rw [h3]; decide

end Loc.Props
