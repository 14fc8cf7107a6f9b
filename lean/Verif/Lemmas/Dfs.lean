import Verif.Lemmas.Lookup
import Verif.Lemmas.Enum
/-
The depth-first search of the network enumerator in a database that holds a tree.
-/
namespace Loc
open Spec

/-- What the search needs to know about the nodes and networks of a database. -/
structure Enc (db : Db) (recs : List NodeRec) (nets : List Network) (junk : Nat → Byte × Byte × Byte × Byte) : Prop where
  count : db.nodeCount = recs.length
  few : nets.length < 0xffffffff
  bound : ∀ r ∈ recs, r.zero < recs.length ∧ r.one < recs.length ∧ (r.net = 0xffffffff ∨ r.net < nets.length)
  node : ∀ (i : Nat) (r : NodeRec), recs[i]? = some r → fetchNode db i = .ok (some r)
  net : ∀ (i : Nat) (n : Network) (a : Addr) (p : Nat), nets[i]? = some n →
    fetchNetwork db a p i = networkFromRecord a p (netRecord (junk i) n)

/-- How many entries of the stack the search of a tree needs. -/
def need : Tree → Nat
  | .nil => 0
  | .node _ _ z o => 1 + max ((if o.isNil then 0 else 1) + need z) (need o)

/-- A subtree that waits on the stack: number and path of its root, and the number of entries below. -/
structure Wait where
  i : Nat
  u : List Bool
  t : Tree
  h : Nat

/-- The stack: entries that were visited (`vis`), and subtrees that wait. -/
inductive Stk (recs : List NodeRec) (nets : List Network) (vis : List Nat) : List StackNode → List Wait → Prop
  | nil : Stk recs nets vis [] []
  | old {nd : StackNode} {rest : List StackNode} {P : List Wait} : nd.offset ∈ vis → Stk recs nets vis rest P →
      Stk recs nets vis (nd :: rest) P
  | new {nd : StackNode} {rest : List StackNode} {P : List Wait} {u : List Bool} {t : Tree} :
      Dec (fun i => recs[i]?) (fun i => nets[i]?) nd.offset t → nd.depth = u.length → nd.i = u.getLast?.getD false →
      Stk recs nets vis rest P → Stk recs nets vis (nd :: rest) (⟨nd.offset, u, t, rest.length⟩ :: P)

theorem Stk.mono {recs : List NodeRec} {nets : List Network} {vis vis' : List Nat} (hv : ∀ i ∈ vis, i ∈ vis')
    {nodes : List StackNode} {P : List Wait} (h : Stk recs nets vis nodes P) : Stk recs nets vis' nodes P := by
  induction h with
  | nil => exact .nil
  | old h1 _ ih => exact .old (hv _ h1) ih
  | new h1 h2 h3 _ ih => exact .new h1 h2 h3 ih

/-- The networks that are still to come. -/
def toCome (P : List Wait) : List Network := P.flatMap (·.t.networks)

/-- The numbers of all nodes that wait. -/
def allIxs (recs : List NodeRec) (P : List Wait) : List Nat := P.flatMap fun p => ixs (fun i => recs[i]?) p.i p.t

/-- Invariant of the search. -/
structure DInv (db : Db) (recs : List NodeRec) (nets : List Network) (e : NetEnum) (P : List Wait) : Prop where
  stk : Stk recs nets e.visited e.nodes P
  nodup : (allIxs recs P).Nodup
  disj : ∀ i ∈ allIxs recs P, i ∉ e.visited
  addr : ∀ p ∈ P, p.u.dropLast <+: bits e.address
  mono : P.Pairwise fun p q => q.u.length ≤ p.u.length
  tail : ∀ p ∈ P.tail, true ∈ p.u
  zero : ∀ p ∈ P, true ∉ p.u → bits e.address = List.replicate 128 false
  good : ∀ p ∈ P, Good p.u p.t
  country : ∀ n ∈ toCome P, CountryOk n
  len : e.nodes.length ≤ 255
  visited : e.visited.Nodup
  range : ∀ i ∈ e.visited, i < db.nodeCount

/-- The stack overflows before the search ends. -/
def Over (P : List Wait) : Prop := ∃ p ∈ P, 256 ≤ p.h + need p.t

/-- A network between ::/80 and ::ffff:0:0/96: it may look like an IPv4 network. -/
def Stale (n : Network) : Prop := 81 ≤ n.pfx ∧ n.pfx ≤ 95 ∧ path n <+: v4path

/-- The parts of the enumerator the search leaves alone. -/
def SameRest (e e' : NetEnum) : Prop := e'.filter = e.filter ∧ e'.stack = e.stack ∧ e'.gap6 = e.gap6 ∧ e'.gap4 = e.gap4

/-- What remains to be done. -/
def work (db : Db) (e : NetEnum) : Nat := 3 * (db.nodeCount - e.visited.length) + e.nodes.length

theorem toCome_cons (p : Wait) (P : List Wait) : toCome (p :: P) = p.t.networks ++ toCome P := by simp [toCome]

/-- The children of a node. -/
def below (r : NodeRec) (u : List Bool) (z o : Tree) (h : Nat) : List Wait :=
  (if z.isNil then [] else [⟨r.zero, u ++ [false], z, h + 1 + (if o.isNil then 0 else 1)⟩]) ++
  (if o.isNil then [] else [⟨r.one, u ++ [true], o, h + 1⟩])

theorem below_flatMap {α : Type} (g : Nat → Tree → List α) (hg : ∀ i, g i .nil = []) (r : NodeRec) (u : List Bool) (z o : Tree) (h : Nat) :
    (below r u z o h).flatMap (fun p => g p.i p.t) = g r.zero z ++ g r.one o := by
  unfold below
  cases z <;> cases o <;> simp [Tree.isNil, hg]

theorem mem_below {r : NodeRec} {u : List Bool} {z o : Tree} {h : Nat} {p : Wait} (hp : p ∈ below r u z o h) :
    (z ≠ .nil ∧ p = ⟨r.zero, u ++ [false], z, h + 1 + (if o.isNil then 0 else 1)⟩) ∨ (o ≠ .nil ∧ p = ⟨r.one, u ++ [true], o, h + 1⟩) := by
  unfold below at hp
  rcases List.mem_append.mp hp with hp | hp
  · split at hp
    · cases hp
    · rename_i hz
      exact .inl ⟨fun e => hz ((isNil_iff z).mpr e), by simpa using hp⟩
  · split at hp
    · cases hp
    · rename_i ho
      exact .inr ⟨fun e => ho ((isNil_iff o).mpr e), by simpa using hp⟩

theorem mem_tail_below {r : NodeRec} {u : List Bool} {z o : Tree} {h : Nat} {P : List Wait} {p : Wait}
    (hp : p ∈ (below r u z o h ++ P).tail) : p ∈ P ∨ p = ⟨r.one, u ++ [true], o, h + 1⟩ := by
  unfold below at hp
  generalize z.isNil = a at hp
  generalize o.isNil = b at hp
  cases a <;> cases b
  · have hp : p ∈ (⟨r.one, u ++ [true], o, h + 1⟩ : Wait) :: P := hp
    exact (List.mem_cons.mp hp).symm
  · exact .inl hp
  · exact .inl hp
  · exact .inl (List.mem_of_mem_tail hp)

/-- The address after the bit of a node is set. -/
theorem bits_visit {a : Addr} {u : List Bool} (hl : u.length ≤ 128) (h : u.dropLast <+: bits a) (h0 : u = [] → bits a = List.replicate 128 false) :
    u <+: bits (setBit a (u.length - 1) (u.getLast?.getD false)) := by
  rcases List.eq_nil_or_concat u with rfl | ⟨v, b, rfl⟩
  · exact List.nil_prefix
  · rw [List.concat_eq_append] at *
    rw [List.dropLast_concat] at h
    simp only [List.length_append, List.length_singleton] at hl
    rw [bits_setBit _ _ (by simp; omega)]
    simp only [List.getLast?_concat, Option.getD_some, List.length_append, List.length_singleton, Nat.add_sub_cancel]
    obtain ⟨x, hx⟩ := h
    have hx1 : x.length = 128 - v.length := by
      have := congrArg List.length hx
      simp at this; omega
    rw [← hx, List.set_append_right _ _ (Nat.le_refl _), Nat.sub_self]
    cases x with
    | nil => simp at hx1; omega
    | cons c x =>
      rw [List.set_cons_zero]
      exact ⟨x, by simp⟩

/-- Shorter paths are not affected. -/
theorem bits_visit_other {a : Addr} {v : List Bool} {k : Nat} {b : Bool} (hk : k < 128) (hl : v.length ≤ k) (h : v <+: bits a) :
    v <+: bits (setBit a k b) := by
  rw [bits_setBit _ _ hk]
  rw [List.prefix_iff_eq_take] at h ⊢
  rw [List.take_set_of_le hl]
  exact h

theorem bits_visit_zero {a : Addr} {k : Nat} (hk : k < 128) (h : bits a = List.replicate 128 false) :
    bits (setBit a k false) = List.replicate 128 false := by
  rw [bits_setBit _ _ hk, h]
  apply List.ext_getElem (by simp)
  intro i h1 h2
  rw [List.getElem_set, List.getElem_replicate]
  split <;> rfl

/-- Prefixes of the IPv4 prefix with a one bit are long. -/
theorem prefix_v4_true {u : List Bool} (h : u <+: v4path) (ht : true ∈ u) : 81 ≤ u.length := by
  rcases Nat.lt_or_ge u.length 81 with hlt | hge
  · exfalso
    rw [List.prefix_iff_eq_take] at h
    rw [h, v4path, List.take_append_of_le_length (by simp; omega), List.take_replicate] at ht
    have := List.eq_of_mem_replicate ht
    cases this
  · exact hge

theorem isNil_false {t : Tree} (h : t ≠ .nil) : t.isNil = false := by
  cases t with
  | nil => exact absurd rfl h
  | node => rfl

theorem nodup_length_le {l m : List Nat} (h : l.Nodup) (hs : ∀ i ∈ l, i ∈ m) : l.length ≤ m.length := by
  induction l generalizing m with
  | nil => simp
  | cons a l ih =>
    rw [List.nodup_cons] at h
    have h1 : a ∈ m := hs a (List.mem_cons_self ..)
    have := ih (m := m.erase a) h.2 (fun i hi => (List.mem_erase_of_ne (show i ≠ a from fun e => h.1 (e ▸ hi))).mpr (hs i (List.mem_cons_of_mem _ hi)))
    rw [List.length_erase_of_mem h1] at this
    have := List.length_pos_of_mem h1
    simp only [List.length_cons]
    omega

/-- The bit of a node is set, `u` is its path. -/
def visitAddr (a : Addr) (u : List Bool) : Addr := setBit a (u.length - 1) (u.getLast?.getD false)

/-- The network cannot be made from this address. -/
def rejected (a : Addr) (n : Network) : Bool := isV4Mapped a && decide (n.pfx < 96)

set_option maxHeartbeats 400000 in
/-- One visit of a node. -/
theorem visit_step {db : Db} {recs : List NodeRec} {nets : List Network} {junk : Nat → Byte × Byte × Byte × Byte} (enc : Enc db recs nets junk)
    {e : NetEnum} {nd : StackNode} {rest : List StackNode} {u : List Bool} {d : Bool} {net : Option Network} {z o : Tree} {P : List Wait}
    (hi : DInv db recs nets e (⟨nd.offset, u, .node d net z o, rest.length⟩ :: P)) (hn : e.nodes = nd :: rest)
    (hd : Dec (fun i => recs[i]?) (fun i => nets[i]?) nd.offset (.node d net z o)) (hdep : nd.depth = u.length)
    (hbit : nd.i = u.getLast?.getD false) (hrest : Stk recs nets e.visited rest P) (filter : Bool) (fuel : Nat) :
    (Over (⟨nd.offset, u, .node d net z o, rest.length⟩ :: P) ∧ dfsLoop db filter (fuel + 1) e = .error .oob) ∨
    ∃ e' r, DInv db recs nets e' (below r u z o rest.length ++ P) ∧ SameRest e e' ∧
      (Over (below r u z o rest.length ++ P) ↔ Over (⟨nd.offset, u, .node d net z o, rest.length⟩ :: P)) ∧
      work db e' < work db e ∧ e'.address = visitAddr e.address u ∧
      toCome (⟨nd.offset, u, .node d net z o, rest.length⟩ :: P) = net.toList ++ toCome (below r u z o rest.length ++ P) ∧
      (∀ n, net = some n → rejected e'.address n = true → Stale n) ∧
      dfsLoop db filter (fuel + 1) e = (match net with
        | none => dfsLoop db filter fuel e'
        | some n => if rejected e'.address n then .ok (.failed, e')
          else if !filter || matchNetwork e.filter (readBack n) then .ok (.item (readBack n), e') else dfsLoop db filter fuel e') := by
    obtain ⟨r, hr, hz, ho, hnet⟩ := hd
    have hr : recs[nd.offset]? = some r := hr
    have hlt : nd.offset < recs.length := (List.getElem?_eq_some_iff.mp hr).1
    have hbd := enc.bound r (List.mem_of_getElem? hr)
    have hgood := hi.good _ (List.mem_cons_self ..)
    obtain ⟨g1, -, g3, gz, go⟩ := hgood
    simp only at g1 g3 gz go
    have hixs : allIxs recs (⟨nd.offset, u, .node d net z o, rest.length⟩ :: P) =
        nd.offset :: ((ixs (fun i => recs[i]?) r.zero z ++ ixs (fun i => recs[i]?) r.one o) ++ allIxs recs P) := by
      unfold allIxs
      rw [List.flatMap_cons]
      simp only
      rw [ixs_node (R := fun i => recs[i]?) (i := nd.offset) hr]
      rfl
    have hnv : nd.offset ∉ e.visited := hi.disj _ (by rw [hixs]; exact List.mem_cons_self ..)
    have hlen := hi.len
    rw [hn, List.length_cons] at hlen
    -- the address
    have hroot : u = [] → bits e.address = List.replicate 128 false := fun hu =>
      hi.zero _ (List.mem_cons_self ..) (by simp only [hu]; intro h; cases h)
    have haddr : u <+: bits (setBit e.address (nd.depth - 1) nd.i) := by
      rw [hdep, hbit]
      exact bits_visit g1 (hi.addr _ (List.mem_cons_self ..)) hroot
    have hk : nd.depth - 1 < 128 := by omega
    have hzero : true ∉ u → bits (setBit e.address (nd.depth - 1) nd.i) = List.replicate 128 false := by
      intro hu
      have hbf : nd.i = false := by
        rw [hbit]
        cases hgl : u.getLast? with
        | none => rfl
        | some b =>
          cases b with
          | false => rfl
          | true => exact absurd (List.mem_of_getLast? hgl) hu
      rw [hbf]
      exact bits_visit_zero hk (hi.zero _ (List.mem_cons_self ..) hu)
    have hvlen : (nd.offset :: e.visited).length ≤ db.nodeCount := by
      have hnd : (nd.offset :: e.visited).Nodup := List.nodup_cons.mpr ⟨hnv, hi.visited⟩
      have hsub : ∀ i ∈ nd.offset :: e.visited, i ∈ List.range db.nodeCount := by
        intro i hm
        rw [List.mem_range]
        rcases List.mem_cons.mp hm with rfl | hm
        · rw [enc.count]; exact hlt
        · exact hi.range i hm
      have := nodup_length_le hnd hsub
      simpa using this
    -- unfold the step
    have hcount : ¬ nd.offset ≥ db.nodeCount := by rw [enc.count]; omega
    have hunf : dfsLoop db filter (fuel + 1) e =
        (match pushNode db (nd :: rest) r.one true (nd.depth + 1) with
          | .error x => .error x
          | .ok none => .ok (.failed, { e with address := setBit e.address (nd.depth - 1) nd.i, visited := nd.offset :: e.visited })
          | .ok (some nodes) =>
            match pushNode db nodes r.zero false (nd.depth + 1) with
            | .error x => .error x
            | .ok none => .ok (.failed, { e with address := setBit e.address (nd.depth - 1) nd.i, visited := nd.offset :: e.visited, nodes := nodes })
            | .ok (some nodes') =>
              let e' := { e with address := setBit e.address (nd.depth - 1) nd.i, visited := nd.offset :: e.visited, nodes := nodes' }
              if isLeaf r then
                match fetchNetwork db (setBit e.address (nd.depth - 1) nd.i) nd.depth r.net with
                | .error x => .error x
                | .ok .soft => .ok (.failed, e')
                | .ok .hard => .ok (.failedHeld, e')
                | .ok (.got n) =>
                  if !filter || matchNetwork e.filter n then .ok (.item n, e') else dfsLoop db filter fuel e'
              else dfsLoop db filter fuel e') := by
      rw [dfsLoop]
      simp only [hn, if_neg hcount, if_neg hnv, if_neg (by omega : ¬ nd.depth - 1 ≥ 128), enc.node _ _ hr]
      rfl
    -- pushing
    have hpush : ∀ (nodes : List StackNode) (c : Tree) (off : Nat) (b : Bool), nodes.length ≤ 255 → off < recs.length →
        ((c = .nil ∧ off = 0) ∨ (c ≠ .nil ∧ off ≠ 0)) →
        pushNode db nodes off b (nd.depth + 1) = (if c.isNil then .ok (some nodes)
          else if nodes.length + 1 ≥ 256 then .error .oob else .ok (some (⟨off, b, nd.depth + 1⟩ :: nodes))) := by
      intro nodes c off b h1 h2 h3
      unfold pushNode
      rcases h3 with ⟨rfl, h3⟩ | ⟨h3, h4⟩
      · rw [if_pos h3]; rfl
      · rw [if_neg h4, if_neg (by unfold maxStackDepth; omega), if_neg (by rw [enc.count]; omega), isNil_false h3]
        rfl
    have ho' : (o = .nil ∧ r.one = 0) ∨ (o ≠ .nil ∧ r.one ≠ 0) := by
      rcases ho with h | ⟨h1, h2, -⟩
      · exact .inl h
      · exact .inr ⟨h1, h2⟩
    have hz' : (z = .nil ∧ r.zero = 0) ∨ (z ≠ .nil ∧ r.zero ≠ 0) := by
      rcases hz with h | ⟨h1, h2, -⟩
      · exact .inl h
      · exact .inr ⟨h1, h2⟩
    have hneed : need (.node d net z o) = 1 + max ((if o.isNil then 0 else 1) + need z) (need o) := rfl
    have hneedpos : ∀ c : Tree, c ≠ .nil → 1 ≤ need c := by
      intro c hc
      cases c with
      | nil => exact absurd rfl hc
      | node => simp only [need]; omega
    have hneednil : ∀ c : Tree, c.isNil = true → need c = 0 := by
      intro c hc
      rw [(isNil_iff c).mp hc]; rfl
    rw [hunf, hpush (nd :: rest) o r.one true (by simpa using hlen) hbd.2.1 ho']
    by_cases hO : o.isNil = false ∧ (nd :: rest).length + 1 ≥ 256
    · left
      rw [hO.1, if_neg (by simp), if_pos hO.2]
      refine ⟨⟨_, List.mem_cons_self .., ?_⟩, rfl⟩
      simp only [hneed]
      have := hneedpos o (fun h => by rw [h] at hO; cases hO.1)
      rw [hO.1]
      simp only [List.length_cons] at hO
      simp
      omega
    · obtain ⟨nodes1, hn1, hl1, hs1⟩ : ∃ nodes1, (if o.isNil then (.ok (some (nd :: rest)) : Res (Option (List StackNode)))
          else if (nd :: rest).length + 1 ≥ 256 then .error .oob else .ok (some (⟨r.one, true, nd.depth + 1⟩ :: nd :: rest))) = .ok (some nodes1) ∧
          nodes1.length = rest.length + 1 + (if o.isNil then 0 else 1) ∧ nodes1.length ≤ 255 := by
        cases hoN : o.isNil with
        | true => exact ⟨_, rfl, by simp, by simpa using hlen⟩
        | false =>
          have : ¬ (nd :: rest).length + 1 ≥ 256 := fun h => hO ⟨hoN, h⟩
          exact ⟨⟨r.one, true, nd.depth + 1⟩ :: nd :: rest, by rw [if_neg (by simp), if_neg this], by simp, by simp at this ⊢; omega⟩
      rw [hn1]
      simp only
      rw [hpush nodes1 z r.zero false hs1 hbd.1 hz']
      by_cases hZ : z.isNil = false ∧ nodes1.length + 1 ≥ 256
      · left
        rw [hZ.1, if_neg (by simp), if_pos hZ.2]
        refine ⟨⟨_, List.mem_cons_self .., ?_⟩, rfl⟩
        simp only [hneed]
        have := hneedpos z (fun h => by rw [h] at hZ; cases hZ.1)
        omega
      · right
        obtain ⟨nodes2, hn2, hl2, hs2⟩ : ∃ nodes2, (if z.isNil then (.ok (some nodes1) : Res (Option (List StackNode)))
            else if nodes1.length + 1 ≥ 256 then .error .oob else .ok (some (⟨r.zero, false, nd.depth + 1⟩ :: nodes1))) = .ok (some nodes2) ∧
            nodes2 = (if z.isNil then [] else [⟨r.zero, false, nd.depth + 1⟩]) ++ nodes1 ∧ nodes2.length ≤ 255 := by
          cases hzN : z.isNil with
          | true => exact ⟨_, rfl, by simp, hs1⟩
          | false =>
            have : ¬ nodes1.length + 1 ≥ 256 := fun h => hZ ⟨hzN, h⟩
            exact ⟨⟨r.zero, false, nd.depth + 1⟩ :: nodes1, by rw [if_neg (by simp), if_neg this], by simp, by simp; omega⟩
        have hn1' : nodes1 = (if o.isNil then [] else [⟨r.one, true, nd.depth + 1⟩]) ++ (nd :: rest) := by
          cases hoN : o.isNil with
          | true => rw [hoN, if_pos rfl] at hn1; cases hn1; rfl
          | false =>
            have : ¬ (nd :: rest).length + 1 ≥ 256 := fun h => hO ⟨hoN, h⟩
            rw [hoN, if_neg (by simp), if_neg this] at hn1; cases hn1; rfl
        rw [hn2]
        simp only
        -- the new state
        have hzlen : ∀ c : Tree, (if c.isNil then ([] : List Nat) else [0]).length ≤ 1 := by intro c; split <;> simp
        have hstk : Stk recs nets (nd.offset :: e.visited) nodes2 (below r u z o rest.length ++ P) := by
          have h1 : Stk recs nets (nd.offset :: e.visited) (nd :: rest) P :=
            .old (List.mem_cons_self ..) (hrest.mono fun i h => List.mem_cons_of_mem _ h)
          have h2 : Stk recs nets (nd.offset :: e.visited) nodes1 ((if o.isNil then [] else [⟨r.one, u ++ [true], o, rest.length + 1⟩]) ++ P) := by
            rw [hn1']
            rcases ho with ⟨h, -⟩ | ⟨h, -, hdec⟩
            · rw [h]; exact h1
            · rw [isNil_false h]
              exact Stk.new (nd := ⟨r.one, true, nd.depth + 1⟩) (u := u ++ [true]) hdec (by simp [hdep]) (by simp) h1
          rw [hl2]
          unfold below
          rw [List.append_assoc]
          rcases hz with ⟨h, -⟩ | ⟨h, -, hdec⟩
          · rw [h]; exact h2
          · rw [isNil_false h]
            have := Stk.new (nd := ⟨r.zero, false, nd.depth + 1⟩) (u := u ++ [false]) hdec (by simp [hdep]) (by simp) h2
            rw [hl1] at this
            exact this
        have hallixs : allIxs recs (below r u z o rest.length ++ P) = (ixs (fun i => recs[i]?) r.zero z ++ ixs (fun i => recs[i]?) r.one o) ++ allIxs recs P := by
          unfold allIxs
          rw [List.flatMap_append, below_flatMap (fun i t => ixs (fun i => recs[i]?) i t) (fun _ => rfl)]
        have htc : toCome (below r u z o rest.length ++ P) = z.networks ++ o.networks ++ toCome P := by
          unfold toCome
          rw [List.flatMap_append, below_flatMap (fun _ t => t.networks) (fun _ => rfl)]
        have htc0 : toCome (⟨nd.offset, u, .node d net z o, rest.length⟩ :: P) = net.toList ++ toCome (below r u z o rest.length ++ P) := by
          rw [toCome_cons, htc]
          simp [Tree.networks]
        have hnodup := hi.nodup
        rw [hixs, List.nodup_cons] at hnodup
        have hmem : ∀ p ∈ below r u z o rest.length ++ P, (p ∈ below r u z o rest.length ∧ p.u.dropLast = u ∧ p.u.length = u.length + 1 ∧ (true ∉ p.u → true ∉ u)) ∨ p ∈ P := by
          intro p hp
          rcases List.mem_append.mp hp with hp | hp
          · left
            refine ⟨hp, ?_⟩
            rcases mem_below hp with ⟨-, rfl⟩ | ⟨-, rfl⟩
            · exact ⟨by simp, by simp, by simp⟩
            · exact ⟨by simp, by simp, by simp⟩
          · exact .inr hp
        have hP : ∀ p ∈ P, p.u.length ≤ u.length := (List.pairwise_cons.mp hi.mono).1
        have hinv : DInv db recs nets { e with address := setBit e.address (nd.depth - 1) nd.i, visited := nd.offset :: e.visited, nodes := nodes2 }
            (below r u z o rest.length ++ P) := by
          refine ⟨hstk, ?_, ?_, ?_, ?_, ?_, ?_, ?_, ?_, hs2, ?_, ?_⟩
          · rw [hallixs]; exact hnodup.2
          · rw [hallixs]
            intro i hm hv
            rcases List.mem_cons.mp hv with rfl | hv
            · exact hnodup.1 hm
            · exact hi.disj i (by rw [hixs]; exact List.mem_cons_of_mem _ hm) hv
          · intro p hp
            rcases hmem p hp with ⟨-, h2, -, -⟩ | hp
            · rw [h2]; exact haddr
            · refine bits_visit_other hk ?_ (hi.addr p (List.mem_cons_of_mem _ hp))
              have := hP p hp
              rw [List.length_dropLast]
              omega
          · rw [List.pairwise_append]
            refine ⟨?_, (List.pairwise_cons.mp hi.mono).2, ?_⟩
            · unfold below
              cases z.isNil <;> cases o.isNil <;> simp
            · intro p hp q hq
              rcases hmem p (List.mem_append_left _ hp) with ⟨-, -, h3, -⟩ | hp
              · have := hP q hq; omega
              · have := hP q hq
                rcases mem_below (by assumption : p ∈ below r u z o rest.length) with ⟨-, rfl⟩ | ⟨-, rfl⟩ <;> simp <;> omega
          · intro p hp
            have hPt : ∀ p ∈ P, true ∈ p.u := hi.tail
            have hcase := mem_tail_below hp
            rcases hcase with hp | rfl
            · exact hPt p hp
            · simp
          · intro p hp hu
            rcases hmem p hp with ⟨-, -, -, h4⟩ | hp
            · exact hzero (h4 hu)
            · exact absurd (hi.tail p hp) hu
          · intro p hp
            rcases List.mem_append.mp hp with hp | hp
            · rcases mem_below hp with ⟨-, rfl⟩ | ⟨-, rfl⟩
              · exact gz
              · exact go
            · exact hi.good p (List.mem_cons_of_mem _ hp)
          · intro n hn
            exact hi.country n (by rw [htc0]; exact List.mem_append_right _ hn)
          · exact List.nodup_cons.mpr ⟨hnv, hi.visited⟩
          · intro i hm
            rcases List.mem_cons.mp hm with rfl | hm
            · rw [enc.count]; exact hlt
            · exact hi.range i hm
        have hover : Over (below r u z o rest.length ++ P) ↔ Over (⟨nd.offset, u, .node d net z o, rest.length⟩ :: P) := by
          constructor
          · rintro ⟨p, hp, h⟩
            rcases List.mem_append.mp hp with hp | hp
            · refine ⟨_, List.mem_cons_self .., ?_⟩
              simp only [hneed]
              rcases mem_below hp with ⟨-, rfl⟩ | ⟨-, rfl⟩
              · simp only at h; omega
              · simp only at h; omega
            · exact ⟨p, List.mem_cons_of_mem _ hp, h⟩
          · rintro ⟨p, hp, h⟩
            rcases List.mem_cons.mp hp with rfl | hp
            · simp only [hneed] at h
              rcases Nat.le_total ((if o.isNil then 0 else 1) + need z) (need o) with hm | hm
              · rw [Nat.max_eq_right hm] at h
                have : o.isNil = false := by
                  cases hoN : o.isNil with
                  | false => rfl
                  | true => rw [hneednil o hoN] at h; omega
                refine ⟨⟨r.one, u ++ [true], o, rest.length + 1⟩, ?_, by simp only; omega⟩
                unfold below; rw [this]; simp
              · rw [Nat.max_eq_left hm] at h
                have : z.isNil = false := by
                  cases hzN : z.isNil with
                  | false => rfl
                  | true =>
                    rw [hneednil z hzN] at h
                    rw [hl1] at hs1
                    omega
                refine ⟨⟨r.zero, u ++ [false], z, rest.length + 1 + (if o.isNil then 0 else 1)⟩, ?_, by simp only; omega⟩
                unfold below; rw [this]; simp
            · exact ⟨p, List.mem_append_right _ hp, h⟩
        have hva : visitAddr e.address u = setBit e.address (nd.depth - 1) nd.i := by unfold visitAddr; rw [hdep, hbit]
        have hrej : ∀ n, net = some n → rejected (setBit e.address (nd.depth - 1) nd.i) n = true → Stale n := by
          rintro n rfl hv
          obtain ⟨hb, hp⟩ := g3 n rfl
          simp only [rejected, Bool.and_eq_true, decide_eq_true_eq] at hv
          obtain ⟨hv, hlt96⟩ := hv
          have hlu : n.pfx = u.length := by rw [← hp, length_path hb.le]
          rw [isV4Mapped_iff_path] at hv
          have hpre : u <+: v4path := by
            rcases prefix_or_prefix haddr hv with h | h
            · exact h
            · have := h.length_le
              rw [length_v4path] at this
              omega
          by_cases hu : true ∈ u
          · have := prefix_v4_true hpre hu
            exact ⟨by omega, by omega, by rw [hp]; exact hpre⟩
          · rw [hzero hu] at hv
            have := hv.subset (show true ∈ v4path by decide)
            have := List.eq_of_mem_replicate this
            cases this
        refine ⟨_, r, hinv, ⟨rfl, rfl, rfl, rfl⟩, hover, ?_, hva.symm, htc0, hrej, ?_⟩
        · unfold work
          rw [hn]
          simp only [List.length_cons] at hvlen ⊢
          have : nodes2.length ≤ rest.length + 3 := by
            rw [hl2, hn1']
            split <;> split <;> simp
          omega
        · cases net with
          | none =>
            have hnet : r.net = 0xffffffff := hnet
            have : isLeaf r = false := by simp [isLeaf, hnet]
            simp only [this]
            rfl
          | some n =>
            have hnet : nets[r.net]? = some n := hnet
            have hleaf : isLeaf r = true := by
              have := (List.getElem?_eq_some_iff.mp hnet).1
              have := enc.few
              simp only [isLeaf]
              exact decide_eq_true (by omega)
            obtain ⟨hb, hp⟩ := g3 n rfl
            have hpfx : n.pfx = nd.depth := by rw [hdep, ← hp, length_path hb.le]
            have hmemn : n ∈ toCome (⟨nd.offset, u, .node d (some n) z o, rest.length⟩ :: P) := by rw [htc0]; simp
            cases hrj : rejected (setBit e.address (nd.depth - 1) nd.i) n with
            | true =>
              have hrj' := hrj
              simp only [rejected, Bool.and_eq_true, decide_eq_true_eq] at hrj'
              have hsoft := networkFromRecord_soft (junk r.net) n hrj'.1 hrj'.2
              rw [hpfx] at hsoft
              simp only [hleaf, if_true, enc.net _ n _ _ hnet, hsoft, hrj]
            | false =>
              have hgot := networkFromRecord_ok (junk r.net) hb (hi.country n hmemn) (a := setBit e.address (nd.depth - 1) nd.i)
                (by rw [hp]; exact haddr) (by
                  intro hv
                  simp only [rejected, hv, Bool.true_and, decide_eq_false_iff_not] at hrj
                  omega)
              rw [hpfx] at hgot
              simp only [hleaf, if_true, enc.net _ n _ _ hnet, hgot, hrj]
              rfl

/-- What an enumeration returns, on the tree: the networks, and the address at the end if no network was rejected. -/
def walkTree (sel : Network → Bool) : Tree → List Bool → Addr → List Network × Option Addr
  | .nil, _, a => ([], some a)
  | .node _ net z o, u, a =>
    if net.any (rejected (visitAddr a u)) then ([], none)
    else
      match walkTree sel z (u ++ [false]) (visitAddr a u) with
      | (lz, none) => ((net.toList.map readBack).filter sel ++ lz, none)
      | (lz, some b) =>
        match walkTree sel o (u ++ [true]) b with
        | (lo, r) => ((net.toList.map readBack).filter sel ++ lz ++ lo, r)

/-- The same for the waiting subtrees. -/
def walkAll (sel : Network → Bool) : List Wait → Addr → List Network × Option Addr
  | [], a => ([], some a)
  | p :: P, a =>
    match walkTree sel p.t p.u a with
    | (l, none) => (l, none)
    | (l, some b) => match walkAll sel P b with
      | (l', r) => (l ++ l', r)

theorem walkAll_append (sel : Network → Bool) (P Q : List Wait) : ∀ a, walkAll sel (P ++ Q) a =
    match walkAll sel P a with
    | (l, none) => (l, none)
    | (l, some b) => match walkAll sel Q b with
      | (l', r) => (l ++ l', r) := by
  induction P with
  | nil => intro a; simp [walkAll]
  | cons p P ih =>
    intro a
    rw [List.cons_append, walkAll, walkAll]
    rcases walkTree sel p.t p.u a with ⟨l, _ | b⟩
    · rfl
    · simp only
      rw [ih]
      rcases walkAll sel P b with ⟨l', _ | b'⟩
      · rfl
      · simp [List.append_assoc]

theorem walkAll_below (sel : Network → Bool) (r : NodeRec) (u : List Bool) (z o : Tree) (h : Nat) (a : Addr) :
    walkAll sel (below r u z o h) a = 
      match walkTree sel z (u ++ [false]) a with
      | (lz, none) => (lz, none)
      | (lz, some b) =>
        match walkTree sel o (u ++ [true]) b with
        | (lo, r) => (lz ++ lo, r) := by
  unfold below
  have h1 : ∀ (i h : Nat) (v : List Bool) (c : Tree) (a : Addr), walkAll sel (if c.isNil then [] else [⟨i, v, c, h⟩]) a = walkTree sel c v a := by
    intro i h v c a
    cases c with
    | nil => rfl
    | node d n z o =>
      show walkAll sel [_] a = _
      rw [walkAll]
      simp only
      rcases walkTree sel (.node d n z o) v a with ⟨l, _ | b⟩
      · rfl
      · simp [walkAll]
  rw [walkAll_append, h1]
  rcases walkTree sel z (u ++ [false]) a with ⟨lz, _ | b⟩
  · rfl
  · simp only
    rw [h1]

/-- Visiting one node. -/
theorem walkAll_visit (sel : Network → Bool) (r : NodeRec) (i : Nat) (u : List Bool) (d : Bool) (net : Option Network) (z o : Tree) (h h' : Nat)
    (P : List Wait) (a : Addr) :
    walkAll sel (⟨i, u, .node d net z o, h⟩ :: P) a =
      if net.any (rejected (visitAddr a u)) then ([], none)
      else ((net.toList.map readBack).filter sel ++ (walkAll sel (below r u z o h' ++ P) (visitAddr a u)).1,
        (walkAll sel (below r u z o h' ++ P) (visitAddr a u)).2) := by
  rw [walkAll, walkAll_append, walkAll_below]
  simp only [walkTree]
  cases net.any (rejected (visitAddr a u)) with
  | true => rfl
  | false =>
    simp only [Bool.false_eq_true, if_false]
    rcases walkTree sel z (u ++ [false]) (visitAddr a u) with ⟨lz, _ | b⟩
    · rfl
    · simp only
      rcases walkTree sel o (u ++ [true]) b with ⟨lo, _ | b'⟩
      · simp [List.append_assoc]
      · simp [List.append_assoc]

/-- The outcomes of a search. -/
def DfsOut (db : Db) (recs : List NodeRec) (nets : List Network) (sel : Network → Bool) (e : NetEnum) (P : List Wait)
    (res : Res (Next Network × NetEnum)) : Prop :=
  ∃ pre, (∀ m ∈ pre, sel (readBack m) = false) ∧
    ((∃ e', res = .ok (.done, e') ∧ toCome P = pre ∧ walkAll sel P e.address = ([], some e'.address) ∧
        DInv db recs nets e' [] ∧ e'.nodes = [] ∧ SameRest e e' ∧ ¬ Over P) ∨
     (∃ n e' P', res = .ok (.item (readBack n), e') ∧ sel (readBack n) = true ∧ toCome P = pre ++ n :: toCome P' ∧
        walkAll sel P e.address = (readBack n :: (walkAll sel P' e'.address).1, (walkAll sel P' e'.address).2) ∧
        DInv db recs nets e' P' ∧ SameRest e e' ∧ (Over P' ↔ Over P)) ∨
     (Over P ∧ res = .error .oob) ∨
     (∃ n e' P', res = .ok (.failed, e') ∧ toCome P = pre ++ n :: toCome P' ∧ Stale n ∧ walkAll sel P e.address = ([], none) ∧
        DInv db recs nets e' P' ∧ SameRest e e' ∧ (Over P' ↔ Over P)))

/-- The search runs until a network is found. -/
theorem dfs_run {db : Db} {recs : List NodeRec} {nets : List Network} {junk : Nat → Byte × Byte × Byte × Byte} (enc : Enc db recs nets junk)
    (filter : Bool) (sel : Network → Bool) : ∀ (fuel : Nat) (e : NetEnum) (P : List Wait), DInv db recs nets e P → work db e < fuel →
    (∀ n, sel n = (!filter || matchNetwork e.filter n)) → DfsOut db recs nets sel e P (dfsLoop db filter fuel e) := by
  intro fuel
  induction fuel with
  | zero => intro e P hi hf; omega
  | succ fuel ih =>
    intro e P hi hf hsel
    have hstk := hi.stk
    generalize hnodes : e.nodes = nodes at hstk
    cases hstk with
    | nil =>
      refine ⟨[], by simp, .inl ⟨e, ?_, rfl, rfl, hi, hnodes, ⟨rfl, rfl, rfl, rfl⟩, ?_⟩⟩
      · rw [dfsLoop, hnodes]
      · rintro ⟨p, hp, -⟩; cases hp
    | @old nd rest _ hv hrest =>
      have hstep : dfsLoop db filter (fuel + 1) e = dfsLoop db filter fuel { e with nodes := rest } := by
        rw [dfsLoop, hnodes]
        simp only
        rw [if_neg (by have := hi.range _ hv; omega), if_pos hv]
      have hi' : DInv db recs nets { e with nodes := rest } P :=
        ⟨hrest, hi.nodup, hi.disj, hi.addr, hi.mono, hi.tail, hi.zero, hi.good, hi.country, by
          have := hi.len; rw [hnodes] at this; simp at this ⊢; omega, hi.visited, hi.range⟩
      have hw : work db { e with nodes := rest } < fuel := by
        unfold work at hf ⊢
        rw [hnodes, List.length_cons] at hf
        simp only
        omega
      rw [hstep]
      exact ih _ _ hi' hw hsel
    | @new nd rest P u t hd hdep hbit hrest =>
      cases t with
      | nil => exact hd.elim
      | node d net z o =>
        rcases visit_step enc hi hnodes hd hdep hbit hrest filter fuel with ⟨ho, he⟩ | ⟨e', r, hi', hsame, hov, hwk, had, htc, hst, hstep⟩
        · exact ⟨[], by simp, .inr (.inr (.inl ⟨ho, he⟩))⟩
        · have hwalk := walkAll_visit sel r nd.offset u d net z o rest.length rest.length P e.address
          rw [← had] at hwalk
          have hcont : dfsLoop db filter (fuel + 1) e = dfsLoop db filter fuel e' → (net.toList.map readBack).filter sel = [] →
              net.any (rejected e'.address) = false → DfsOut db recs nets sel e (⟨nd.offset, u, .node d net z o, rest.length⟩ :: P) (dfsLoop db filter (fuel + 1) e) := fun h1 h2 h3 => by
            obtain ⟨pre, hpre, hrest⟩ := ih e' _ hi' (by omega) (by rw [hsame.1]; exact hsel)
            rw [h3, h2] at hwalk
            simp only [Bool.false_eq_true, if_false, List.nil_append] at hwalk
            have hall : ∀ m ∈ net.toList ++ pre, sel (readBack m) = false := by
              intro m hm
              rcases List.mem_append.mp hm with hm | hm
              · have := List.filter_eq_nil_iff.mp h2 (readBack m) (List.mem_map_of_mem hm)
                simpa using this
              · exact hpre m hm
            have htr : ∀ {f : NetEnum}, SameRest e' f → SameRest e f := by
              intro f hf'
              obtain ⟨s1, s2, s3, s4⟩ := hsame
              obtain ⟨t1, t2, t3, t4⟩ := hf'
              exact ⟨t1.trans s1, t2.trans s2, t3.trans s3, t4.trans s4⟩
            refine ⟨net.toList ++ pre, hall, ?_⟩
            rw [h1, htc, hwalk]
            rcases hrest with ⟨f, r1, r2, r3, r4, r5, r6, r7⟩ | ⟨n, f, P', r1, r2, r3, r4, r5, r6, r7⟩ | ⟨r1, r2⟩ | ⟨n, f, P', r1, r2, r3, r4, r5, r6, r7⟩
            · exact .inl ⟨f, r1, by rw [r2], by rw [r3], r4, r5, htr r6, fun h => r7 (hov.mpr h)⟩
            · exact .inr (.inl ⟨n, f, P', r1, r2, by rw [r3, List.append_assoc], by rw [r4], r5, htr r6, r7.trans hov⟩)
            · exact .inr (.inr (.inl ⟨hov.mp r1, r2⟩))
            · exact .inr (.inr (.inr ⟨n, f, P', r1, by rw [r2, List.append_assoc], r3, by rw [r4], r5, htr r6, r7.trans hov⟩))
          cases net with
          | none => exact hcont hstep rfl rfl
          | some n =>
            simp only at hstep
            cases hrj : rejected e'.address n with
            | true =>
              rw [hrj, if_pos rfl] at hstep
              refine ⟨[], by simp, .inr (.inr (.inr ⟨n, e', _, hstep, htc, hst n rfl hrj, ?_, hi', hsame, hov⟩))⟩
              rw [hwalk]
              simp [hrj]
            | false =>
              rw [hrj, if_neg (by simp)] at hstep
              cases hs : sel (readBack n) with
              | true =>
                rw [← hsel, hs, if_pos rfl] at hstep
                refine ⟨[], by simp, .inr (.inl ⟨n, e', _, hstep, hs, htc, ?_, hi', hsame, hov⟩)⟩
                rw [hwalk]
                simp [hrj, hs]
              | false =>
                rw [← hsel, hs, if_neg (by simp)] at hstep
                exact hcont hstep (by simp [hs]) (by simp [hrj])

end Loc
