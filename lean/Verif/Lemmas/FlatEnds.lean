import Verif.Lemmas.Flatten
import Verif.Lemmas.Terminate
import Verif.Props.Network
import Mathlib.Data.DFinsupp.WellFounded
/-
Flattened enumerations end, whatever the bytes of the file are.  Every step reads a node for the first time, or takes a network
from the list and puts longer ones onto it.
-/
namespace Loc
open Spec

/-! ### networks that are read -/

theorem record_good {a : Addr} {p : Nat} {b : Bytes} {n : Network} (h : networkFromRecord a p b = .ok (.got n)) : Block n ∧ CountryOk n := by
  unfold networkFromRecord at h
  match b, h with
  | [], h => cases h
  | [_], h => cases h
  | c0 :: c1 :: tl, h =>
    simp only at h
    generalize (if isV4Mapped a then (p + 2 ^ 32 - 96) % 2 ^ 32 else p) = q at h
    cases h1 : newNetwork a q with
    | error x => rw [h1] at h; cases h
    | ok n1 =>
      rw [h1] at h
      simp only at h
      cases h2 : setCountryCode n1 (some (ccString c0 c1)) with
      | error x => rw [h2] at h; cases h
      | ok n2 =>
        rw [h2] at h
        cases h
        exact Props.built_ok 8 (Nat.le_refl _) (.flag _ (.asn _ (.country (.new h1) h2)))

theorem fetch_good {db : Db} {a : Addr} {p i : Nat} {n : Network} (h : fetchNetwork db a p i = .ok (.got n)) : Block n ∧ CountryOk n := by
  unfold fetchNetwork at h
  split at h
  · cases h
  · cases hb : dbObject db.file db.netOff netSize i with
    | error x => rw [hb] at h; cases h
    | ok o =>
      rw [hb] at h
      cases o with
      | none => cases h
      | some b => exact record_good h

theorem dfs_more (db : Db) (filter : Bool) : ∀ (fuel : Nat) (e : NetEnum) (x : Next Network) (e' : NetEnum),
    dfsLoop db filter fuel e = .ok (x, e') → e.visited.length ≤ e'.visited.length ∧ (e'.gap6 = e.gap6 ∧ e'.gap4 = e.gap4) ∧ ∀ n, x = .item n → Block n ∧ CountryOk n := by
  intro fuel
  induction fuel with
  | zero => intro e x e' h; cases h
  | succ fuel ih =>
    intro e x e' h
    rw [dfsLoop] at h
    cases hn : e.nodes with
    | nil =>
      rw [hn] at h
      cases h
      exact ⟨Nat.le_refl _, ⟨rfl, rfl⟩, fun n h => by cases h⟩
    | cons nd rest =>
      rw [hn] at h
      simp only at h
      by_cases h1 : nd.offset ≥ db.nodeCount
      · rw [if_pos h1] at h; cases h
      rw [if_neg h1] at h
      by_cases h2 : nd.offset ∈ e.visited
      · rw [if_pos h2] at h
        exact (have q := ih _ _ _ h; q)
      rw [if_neg h2] at h
      by_cases h3 : nd.depth - 1 ≥ 128
      · rw [if_pos h3] at h; cases h
      rw [if_neg h3] at h
      have hgo : ∀ (a : Addr) (nodes : List StackNode),
          dfsLoop db filter fuel { e with address := a, visited := nd.offset :: e.visited, nodes := nodes } = .ok (x, e') →
          e.visited.length ≤ e'.visited.length ∧ (e'.gap6 = e.gap6 ∧ e'.gap4 = e.gap4) ∧ ∀ n, x = .item n → Block n ∧ CountryOk n := by
        intro a nodes h
        obtain ⟨g1, g2⟩ := ih _ _ _ h
        simp only [List.length_cons] at g1
        exact ⟨by omega, g2⟩
      cases hfn : fetchNode db nd.offset with
      | error y => rw [hfn] at h; cases h
      | ok r =>
        rw [hfn] at h
        cases r with
        | none => cases h; exact ⟨by simp, ⟨rfl, rfl⟩, fun n h => by cases h⟩
        | some r =>
          simp only at h
          cases hp1 : pushNode db (nd :: rest) r.one true (nd.depth + 1) with
          | error y => rw [hp1] at h; cases h
          | ok l1 =>
            rw [hp1] at h
            cases l1 with
            | none => cases h; exact ⟨by simp, ⟨rfl, rfl⟩, fun n h => by cases h⟩
            | some l1 =>
              simp only at h
              cases hp2 : pushNode db l1 r.zero false (nd.depth + 1) with
              | error y => rw [hp2] at h; cases h
              | ok l2 =>
                rw [hp2] at h
                cases l2 with
                | none => cases h; exact ⟨by simp, ⟨rfl, rfl⟩, fun n h => by cases h⟩
                | some l2 =>
                  simp only at h
                  split at h
                  · cases hfe : fetchNetwork db (setBit e.address (nd.depth - 1) nd.i) nd.depth r.net with
                    | error y => rw [hfe] at h; cases h
                    | ok y =>
                      rw [hfe] at h
                      cases y with
                      | soft => cases h; exact ⟨by simp, ⟨rfl, rfl⟩, fun n h => by cases h⟩
                      | hard => cases h; exact ⟨by simp, ⟨rfl, rfl⟩, fun n h => by cases h⟩
                      | got n =>
                        simp only at h
                        split at h
                        · cases h
                          exact ⟨by simp, ⟨rfl, rfl⟩, fun m hm => by cases hm; exact fetch_good hfe⟩
                        · exact hgo _ _ h
                  · exact hgo _ _ h

theorem popMatching_split (f : Filter) (filter : Bool) {n : Network} {l' : NetList} : ∀ l, popMatching f filter l = (some n, l') → ∃ pre, l = pre ++ n :: l' := by
  intro l
  induction l with
  | nil => intro h; cases h
  | cons m l ih =>
    intro h
    unfold popMatching at h
    split at h
    · cases h; exact ⟨[], rfl⟩
    · obtain ⟨pre, rfl⟩ := ih h
      exact ⟨m :: pre, rfl⟩

/-! ### one network -/

/-- What holds between all calls. -/
structure RInv (db : Db) (e : NetEnum) : Prop where
  ginv : GInv db e
  ahead : Ahead e.stack

/-- How many nodes were not read yet. -/
def unread (db : Db) (e : NetEnum) : Nat := db.nodeCount - e.visited.length

theorem raw_step {db : Db} {e : NetEnum} (hi : RInv db e) (filter : Bool) :
    nextNetworkRaw db filter e ≠ .error .diverge ∧ ∀ x e', nextNetworkRaw db filter e = .ok (x, e') → RInv db e' ∧ (∀ n, x = .item n → Block n ∧ CountryOk n) ∧
      ((∃ n pre, x = .item n ∧ e.stack = pre ++ n :: e'.stack ∧ e'.visited = e.visited) ∨
       (e'.stack = [] ∧ ((x = .done ∧ e'.nodes = [] ∧ unread db e' ≤ unread db e) ∨ (x ≠ .done ∧ unread db e' < unread db e)))) := by
  obtain ⟨n1, n2⟩ := next_ends db filter e hi.ginv
  refine ⟨n1, fun x e' h => ?_⟩
  obtain ⟨g1, g2⟩ := n2 x e' h
  have h0 := h
  unfold nextNetworkRaw at h
  rcases hp : popMatching e.filter filter e.stack with ⟨_ | n, l⟩
  · have hl := (popMatching_length e.filter filter e.stack).2 l hp
    subst hl
    rw [hp] at h
    simp only at h
    obtain ⟨m1, -, m2⟩ := dfs_more db filter _ _ _ _ h
    obtain ⟨d1, d2⟩ := dfs_ends db filter (dfsFuel db e) { e with stack := [] } ⟨hi.ginv.nodup, hi.ginv.range⟩ (by unfold work dfsFuel; simp only; omega)
    obtain ⟨k1, k2, k3⟩ := d2 x e' h
    simp only at m1 k2 k3
    have hlen := g1.length
    refine ⟨⟨g1, by rw [k2]; exact ⟨List.Pairwise.nil, by simp, by simp⟩⟩, m2, .inr ⟨k2, ?_⟩⟩
    rcases k3 with ⟨k4, k5⟩ | ⟨k4, k5⟩
    · exact .inl ⟨k4, k5, by unfold unread; omega⟩
    · exact .inr ⟨k4, by unfold unread; omega⟩
  · rw [hp] at h
    cases h
    obtain ⟨pre, hs⟩ := popMatching_split _ _ _ hp
    have hsub : l.Sublist e.stack := by rw [hs]; exact ((List.Sublist.refl l).cons n).trans (List.sublist_append_right pre _)
    have hm : n ∈ e.stack := by rw [hs]; simp
    refine ⟨⟨g1, hi.ahead.sub hsub⟩, fun m h => ?_, .inl ⟨n, pre, rfl, hs, rfl⟩⟩
    cases h
    exact ⟨hi.ahead.blk n hm, hi.ahead.cok n hm⟩

theorem ahead_push {l : NetList} {n : Network} (h : Ahead l) (hn : Block n ∧ CountryOk n) :
    ∃ l', listPush l n = .ok l' ∧ Ahead l' ∧ ∀ x ∈ l', x ∈ l ∨ x = n := by
  obtain ⟨l', h1, h2, h3⟩ := listPush_mem l n h.asc
  have h4 : ∀ x ∈ l', x ∈ l ∨ x = n := fun x hx => ((h3 x).mp hx).imp_right And.left
  refine ⟨l', h1, ⟨h2, fun x hx => ?_, fun x hx => ?_⟩, h4⟩
  · rcases h4 x hx with g | rfl
    · exact h.blk x g
    · exact hn.1
  · rcases h4 x hx with g | rfl
    · exact h.cok x g
    · exact hn.2

theorem ahead_merge {l o : NetList} (h : Ahead l) (ho : Ahead o) :
    ∃ l', listMerge l o = .ok l' ∧ Ahead l' ∧ ∀ x ∈ l', x ∈ l ∨ x ∈ o := by
  obtain ⟨l', h1, h2, h3⟩ := listMerge_mem o l h.asc ho.asc
  have h4 : ∀ x ∈ l', x ∈ l ∨ x ∈ o := fun x hx => ((h3 x).mp hx).imp_right And.left
  refine ⟨l', h1, ⟨h2, fun x hx => ?_, fun x hx => ?_⟩, h4⟩
  · rcases h4 x hx with g | g
    · exact h.blk x g
    · exact ho.blk x g
  · rcases h4 x hx with g | g
    · exact h.cok x g
    · exact ho.cok x g

/-! ### collecting -/

theorem collect_mono (db : Db) (n : Network) : ∀ (f : Nat) (e : NetEnum) (s : NetList), collectSubnets db n f e s ≠ .error .diverge →
    ∀ k, collectSubnets db n (f + k) e s = collectSubnets db n f e s := by
  intro f
  induction f with
  | zero => intro e s h; exact absurd rfl h
  | succ f ih =>
    intro e s h k
    rw [show f + 1 + k = (f + k) + 1 by omega]
    rw [collectSubnets] at h
    rw [collectSubnets, collectSubnets]
    cases hr : nextNetworkRaw db false e with
    | error x => rfl
    | ok r =>
      obtain ⟨x, e1⟩ := r
      rw [hr] at h
      cases x with
      | done => rfl
      | failed => rfl
      | failedHeld => rfl
      | item m =>
        simp only at h ⊢
        by_cases hs : isSubnet n m = true
        · rw [if_pos hs] at h
          rw [if_pos hs, if_pos hs]
          cases hl : listPush s m with
          | error x => rfl
          | ok s' =>
            rw [hl] at h
            exact ih e1 s' h k
        · rw [if_neg hs, if_neg hs]

theorem collect_ends (db : Db) (n : Network) : ∀ (f : Nat) (e : NetEnum) (s : NetList), RInv db e → Ahead s → left db e < f →
    collectSubnets db n f e s ≠ .error .diverge ∧ ∀ r e', collectSubnets db n f e s = .ok (r, e') → RInv db e' ∧ unread db e' ≤ unread db e ∧
      (r = none → unread db e' < unread db e) ∧
      ∀ s', r = some s' → Ahead s' ∧ (unread db e' = unread db e → ∀ x, x ∈ s' ∨ x ∈ e'.stack → x ∈ s ∨ x ∈ e.stack) := by
  intro f
  induction f with
  | zero => intro e s _ _ h; omega
  | succ f ih =>
    intro e s hi hs hf
    obtain ⟨r1, r2⟩ := raw_step hi false
    have hleft := (next_ends db false e hi.ginv).2
    rw [collectSubnets]
    cases hr : nextNetworkRaw db false e with
    | error x =>
      rw [hr] at r1
      exact ⟨fun h => r1 (by cases h; rfl), fun r e' h => by cases h⟩
    | ok r =>
      obtain ⟨x, e1⟩ := r
      obtain ⟨i1, i2, i3⟩ := r2 x e1 hr
      have hl1 := (hleft x e1 hr).2
      cases x with
      | failed => exact ⟨(fun h => by cases h), fun r e' h => by cases h⟩
      | failedHeld =>
        refine ⟨(fun h => by cases h), fun r e' h => ?_⟩
        cases h
        rcases i3 with ⟨m, pre, h, -⟩ | ⟨-, ⟨h, -⟩ | ⟨-, h⟩⟩
        · cases h
        · cases h
        · exact ⟨i1, by omega, fun _ => h, fun s' h => by cases h⟩
      | done =>
        refine ⟨(fun h => by cases h), fun r e' h => ?_⟩
        cases h
        rcases i3 with ⟨m, pre, h, -⟩ | ⟨h0, ⟨-, -, h⟩ | ⟨h, -⟩⟩
        · cases h
        · refine ⟨i1, h, (fun h => by cases h), fun s' h => ?_⟩
          cases h
          refine ⟨hs, fun _ x hx => ?_⟩
          rw [h0] at hx
          rcases hx with hx | hx
          · exact .inl hx
          · cases hx
        · exact absurd rfl h
      | item m =>
        have hm := i2 m rfl
        have hlt : left db e1 < left db e := by
          rcases hl1 with ⟨h, -⟩ | ⟨-, h⟩
          · cases h
          · exact h
        -- where `m` comes from
        have hwhere : unread db e1 ≤ unread db e ∧ (unread db e1 = unread db e → m ∈ e.stack ∧ ∀ x ∈ e1.stack, x ∈ e.stack) := by
          rcases i3 with ⟨m', pre, h1, h2, h3⟩ | ⟨-, ⟨h, -⟩ | ⟨-, h⟩⟩
          · cases h1
            refine ⟨by unfold unread; rw [h3], fun _ => ⟨by rw [h2]; simp, fun x hx => by rw [h2]; simp [hx]⟩⟩
          · cases h
          · exact ⟨by omega, fun h' => by omega⟩
        simp only
        by_cases hsub : isSubnet n m = true
        · rw [if_pos hsub]
          obtain ⟨s1, p1, p2, p3⟩ := ahead_push hs hm
          rw [p1]
          obtain ⟨q1, q2⟩ := ih e1 s1 i1 p2 (by omega)
          refine ⟨q1, fun r e' h => ?_⟩
          obtain ⟨t1, t2, t3, t4⟩ := q2 r e' h
          refine ⟨t1, by omega, fun h => (by have := t3 h; omega), fun s' h' => ?_⟩
          obtain ⟨u1, u2⟩ := t4 s' h'
          refine ⟨u1, fun heq x hx => ?_⟩
          obtain ⟨w1, w2⟩ := hwhere.2 (by omega)
          rcases u2 (by omega) x hx with hx | hx
          · rcases p3 x hx with hx | rfl
            · exact .inl hx
            · exact .inr w1
          · exact .inr (w2 x hx)
        · rw [if_neg hsub]
          obtain ⟨s1, p1, p2, p3⟩ := ahead_push i1.ahead hm
          rw [p1]
          refine ⟨(fun h => by cases h), fun r e' h => ?_⟩
          cases h
          refine ⟨⟨⟨i1.ginv.nodup, i1.ginv.range⟩, p2⟩, hwhere.1, (fun h => by cases h), fun s' h' => ?_⟩
          cases h'
          refine ⟨hs, fun heq x hx => ?_⟩
          obtain ⟨w1, w2⟩ := hwhere.2 heq
          rcases hx with hx | hx
          · exact .inl hx
          · rcases p3 x hx with hx | rfl
            · exact .inr (w2 x hx)
            · exact .inr w1

/-! ### cutting -/

theorem ends_cut {n : Network} (hb : Block n) (hc : CountryOk n) {list : NetList} (h : Ahead list) :
    (∃ e, excludeList (128 * list.length + 1) n list = .error (.err e)) ∨
    ∃ r, excludeList (128 * list.length + 1) n list = .ok r ∧ Ahead r ∧ ∀ x ∈ r, n.pfx < x.pfx := by
  by_cases hst : ∃ s ∈ list, path n <+: path s ∧ ¬ Splittable (path n) (path s)
  · exact .inl ⟨_, excludeList_stuck hb hc h.blk hst _⟩
  · right
    have hsp : ∀ s ∈ list, path n <+: path s → Splittable (path n) (path s) := by
      intro s hs hp
      by_contra hne
      exact hst ⟨s, hs, hp, hne⟩
    by_cases hex : ∃ s ∈ list, path n <+: path s ∧ path n ≠ path s
    · obtain ⟨r, r1, r2⟩ := excludeList_spec hb hc h.asc h.blk hsp hex _ (Nat.lt_succ_self _)
      refine ⟨r, r1, ⟨r2.asc, fun x hx => (r2.pieces x hx).block, fun x hx => ?_⟩, fun x hx => ?_⟩
      · obtain ⟨l, -, w, -, p⟩ := r2.pieces x hx
        exact p.countryOk hc
      · obtain ⟨l, -, w', ⟨w, b, g1, -, rfl⟩, p⟩ := r2.pieces x hx
        have e1 := congrArg List.length p.path_eq
        have e2 := g1.length_le
        rw [length_path hb.le] at e2
        rw [length_path p.block.le, List.length_append] at e1
        simp at e1
        omega
    · exact ⟨[], excludeList_none hb h.blk hex _ (Nat.succ_pos _), ⟨List.Pairwise.nil, by simp, by simp⟩, by simp⟩

/-! ### the measure -/

/-- How many networks of each length there are. -/
def lengths (l : NetList) (i : Fin 129) : Nat := (l.filter fun n => decide (n.pfx = i.val)).length

def lengthsLt (c d : Fin 129 → Nat) : Prop := Pi.Lex (· < ·) (fun {_} => (· < ·)) c d

theorem lengthsLt_wf : WellFounded lengthsLt :=
  Pi.Lex.wellFounded (ι := Fin 129) (α := fun _ => Nat) (· < ·) (s := fun _ => (· < ·)) fun _ => wellFounded_lt

theorem lengthsLt_of {c d : Fin 129 → Nat} (p : Fin 129) (h1 : ∀ i, i ≤ p → c i ≤ d i) (h2 : c p < d p) : lengthsLt c d := by
  have key : ∀ k : Nat, ∀ q : Fin 129, q.val = k → q ≤ p → c q < d q → ∃ i, (∀ j, j < i → c j = d j) ∧ c i < d i := by
    intro k
    induction k using Nat.strongRecOn with
    | _ k ih =>
      intro q hq hqp hlt
      by_cases hs : ∃ j, j < q ∧ c j < d j
      · obtain ⟨j, hj, hjl⟩ := hs
        exact ih j.val (by have : j.val < q.val := hj; omega) j rfl (le_of_lt (lt_of_lt_of_le hj hqp)) hjl
      · refine ⟨q, fun j hj => ?_, hlt⟩
        have a1 := h1 j (le_of_lt (lt_of_lt_of_le hj hqp))
        have a2 : ¬ c j < d j := fun h => hs ⟨j, hj, h⟩
        omega
  obtain ⟨i, h3, h4⟩ := key p.val p rfl (le_refl _) h2
  exact ⟨i, h3, h4⟩

theorem ascending_nodup {l : NetList} (h : Ascending l) : l.Nodup :=
  h.imp fun {a b} hab he => by
    subst he
    unfold Before at hab
    omega

/-- Taking a network and putting longer ones back. -/
theorem lengths_drop {pre rest l' : NetList} {n : Network} (hn : n.pfx ≤ 128) (ha : Ascending l') (h : ∀ x ∈ l', x ∈ rest ∨ n.pfx < x.pfx) :
    lengthsLt (lengths l') (lengths (pre ++ n :: rest)) := by
  have h1 : ∀ i : Fin 129, i.val ≤ n.pfx → lengths l' i ≤ lengths rest i := by
    intro i hi
    unfold lengths
    refine List.Subperm.length_le (List.Nodup.subperm ((ascending_nodup ha).filter _) ?_)
    intro x hx
    rw [List.mem_filter] at hx ⊢
    refine ⟨?_, hx.2⟩
    have h2 : x.pfx = i.val := by simpa using hx.2
    rcases h x hx.1 with g | g
    · exact g
    · omega
  have h2 : ∀ i : Fin 129, lengths (pre ++ n :: rest) i = lengths pre i + ((if n.pfx = i.val then 1 else 0) + lengths rest i) := by
    intro i
    unfold lengths
    rw [List.filter_append, List.length_append, List.filter_cons]
    by_cases hp : n.pfx = i.val
    · rw [if_pos (by simpa using hp), if_pos hp, List.length_cons]; omega
    · rw [if_neg (by simpa using hp), if_neg hp]; omega
  refine lengthsLt_of ⟨n.pfx, by omega⟩ (fun i hi => ?_) ?_
  · have := h1 i hi
    rw [h2]
    omega
  · have := h1 ⟨n.pfx, by omega⟩ (Nat.le_refl _)
    rw [h2, if_pos rfl]
    omega

/-- A step forward. -/
def Closer (db : Db) (e' e : NetEnum) : Prop :=
  Prod.Lex (· < ·) lengthsLt (unread db e', lengths e'.stack) (unread db e, lengths e.stack)

theorem closer_wf (db : Db) : WellFounded (Closer db) :=
  InvImage.wf (fun e : NetEnum => (unread db e, lengths e.stack)) (WellFounded.prod_lex wellFounded_lt lengthsLt_wf)

theorem closer_read {db : Db} {e' e : NetEnum} (h : unread db e' < unread db e) : Closer db e' e := Prod.Lex.left _ _ h

theorem closer_list {db : Db} {e' e : NetEnum} (h1 : unread db e' ≤ unread db e) (h2 : unread db e' = unread db e → lengthsLt (lengths e'.stack) (lengths e.stack)) :
    Closer db e' e := by
  rcases Nat.lt_or_eq_of_le h1 with h | h
  · exact closer_read h
  · unfold Closer
    rw [h]
    exact Prod.Lex.right _ (h2 h)

/-! ### one call -/

theorem nextFlat_mono (db : Db) : ∀ (f : Nat) (e : NetEnum), nextFlat db f e ≠ .error .diverge → ∀ k, nextFlat db (f + k) e = nextFlat db f e := by
  intro f
  induction f with
  | zero => intro e h; exact absurd rfl h
  | succ f ih =>
    intro e h k
    rw [show f + 1 + k = (f + k) + 1 by omega]
    rw [nextFlat] at h
    rw [nextFlat, nextFlat]
    cases hr : nextNetworkRaw db true e with
    | error x => rfl
    | ok r =>
      obtain ⟨x, e1⟩ := r
      rw [hr] at h
      cases x with
      | done => rfl
      | failed => rfl
      | failedHeld => rfl
      | item n =>
        simp only at h ⊢
        have hc : collectSubnets db n (f + k + 1) e1 [] = collectSubnets db n (f + 1) e1 [] := by
          rw [show f + k + 1 = f + 1 + k by omega]
          refine collect_mono db n (f + 1) e1 [] ?_ k
          intro hd
          rw [hd] at h
          exact h rfl
        rw [hc]
        cases hcs : collectSubnets db n (f + 1) e1 [] with
        | error x => rfl
        | ok r =>
          obtain ⟨s, e2⟩ := r
          rw [hcs] at h
          cases s with
          | none => rfl
          | some s =>
            simp only at h ⊢
            by_cases hs : s.isEmpty = true
            · rw [if_pos hs, if_pos hs]
            · rw [if_neg hs] at h
              rw [if_neg hs, if_neg hs]
              cases hx : excludeList (128 * s.length + 1) n s with
              | error x => cases x <;> rfl
              | ok ex =>
                rw [hx] at h
                simp only at h ⊢
                cases hm : listMerge e2.stack s with
                | error x => rfl
                | ok l1 =>
                  rw [hm] at h
                  simp only at h ⊢
                  cases hm2 : listMerge l1 ex with
                  | error x => rfl
                  | ok l2 =>
                    rw [hm2] at h
                    exact ih _ h k

theorem nextFlat_ends (db : Db) (e : NetEnum) : RInv db e → ∃ K, nextFlat db K e ≠ .error .diverge ∧
    ∀ x e', nextFlat db K e = .ok (x, e') → RInv db e' ∧ ((x = .done ∧ e'.nodes = [] ∧ e'.stack = []) ∨ (x ≠ .done ∧ Relation.TransGen (Closer db) e' e)) := by
  induction e using (closer_wf db).induction with
  | _ e ih =>
    intro hi
    obtain ⟨r1, r2⟩ := raw_step hi true
    have one : ∀ (y : Res (Next Network × NetEnum)), nextFlat db 1 e = y → y ≠ .error .diverge →
        (∀ x e', y = .ok (x, e') → RInv db e' ∧ ((x = .done ∧ e'.nodes = [] ∧ e'.stack = []) ∨ (x ≠ .done ∧ Relation.TransGen (Closer db) e' e))) → ∃ K, nextFlat db K e ≠ .error .diverge ∧
        ∀ x e', nextFlat db K e = .ok (x, e') → RInv db e' ∧ ((x = .done ∧ e'.nodes = [] ∧ e'.stack = []) ∨ (x ≠ .done ∧ Relation.TransGen (Closer db) e' e)) := by
      intro y h1 h2 h3
      exact ⟨1, by rw [h1]; exact h2, fun x e' h => h3 x e' (by rw [← h1]; exact h)⟩
    cases hr : nextNetworkRaw db true e with
    | error x =>
      refine one (.error x) (by rw [nextFlat, hr]) ?_ (fun x e' h => by cases h)
      rw [hr] at r1
      exact fun h => r1 (by cases h; rfl)
    | ok r =>
      obtain ⟨x, e1⟩ := r
      obtain ⟨i1, i2, i3⟩ := r2 x e1 hr
      cases x with
      | failed =>
        refine one (.ok (.failed, e1)) (by rw [nextFlat, hr]) (fun h => by cases h) (fun x e' h => ?_)
        cases h
        rcases i3 with ⟨m, pre, h, -⟩ | ⟨-, ⟨h, -⟩ | ⟨-, h⟩⟩
        · cases h
        · cases h
        · exact ⟨i1, .inr ⟨(fun h => by cases h), Relation.TransGen.single (closer_read h)⟩⟩
      | failedHeld =>
        refine one (.ok (.failedHeld, e1)) (by rw [nextFlat, hr]) (fun h => by cases h) (fun x e' h => ?_)
        cases h
        rcases i3 with ⟨m, pre, h, -⟩ | ⟨-, ⟨h, -⟩ | ⟨-, h⟩⟩
        · cases h
        · cases h
        · exact ⟨i1, .inr ⟨(fun h => by cases h), Relation.TransGen.single (closer_read h)⟩⟩
      | done =>
        refine one (.ok (.done, e1)) (by rw [nextFlat, hr]) (fun h => by cases h) (fun x e' h => ?_)
        cases h
        rcases i3 with ⟨m, pre, h, -⟩ | ⟨h0, ⟨-, h1, -⟩ | ⟨h, -⟩⟩
        · cases h
        · exact ⟨i1, .inl ⟨rfl, h1, h0⟩⟩
        · exact absurd rfl h
      | item n =>
        have hn := i2 n rfl
        have hn128 : n.pfx ≤ 128 := hn.1.le
        obtain ⟨c1, c2⟩ := collect_ends db n (left db e1 + 1) e1 [] i1 ⟨List.Pairwise.nil, by simp, by simp⟩ (Nat.lt_succ_self _)
        have hcm : ∀ F, left db e1 ≤ F → collectSubnets db n (F + 1) e1 [] = collectSubnets db n (left db e1 + 1) e1 [] := by
          intro F hF
          have := collect_mono db n (left db e1 + 1) e1 [] c1 (F - left db e1)
          rw [show left db e1 + 1 + (F - left db e1) = F + 1 by omega] at this
          exact this
        -- the list afterwards, if no node was read
        have hmeas : ∀ (e2 : NetEnum) (st : NetList), Ascending st → unread db e2 ≤ unread db e1 →
            (unread db e2 = unread db e1 → ∀ x ∈ st, x ∈ e1.stack ∨ n.pfx < x.pfx) → Closer db { e2 with stack := st } e := by
          intro e2 st ha hle hx
          rcases i3 with ⟨n', pre, h1, h2, h3⟩ | ⟨-, ⟨h, -⟩ | ⟨-, h⟩⟩
          · cases h1
            have hu : unread db e1 = unread db e := by unfold unread; rw [h3]
            refine closer_list (by show unread db e2 ≤ _; omega) (fun heq => ?_)
            have heq : unread db e2 = unread db e := heq
            rw [h2]
            exact lengths_drop hn128 ha (hx (by omega))
          · cases h
          · exact closer_read (by show unread db e2 < _; omega)
        cases hcs : collectSubnets db n (left db e1 + 1) e1 [] with
        | error x =>
          rw [hcs] at c1
          refine ⟨left db e1 + 1, ?_, fun x' e' h => ?_⟩
          · rw [nextFlat, hr]
            simp only
            rw [hcs]
            exact fun h => c1 (by cases h; rfl)
          · rw [nextFlat, hr] at h
            simp only at h
            rw [hcs] at h
            cases h
        | ok r =>
          obtain ⟨s, e2⟩ := r
          obtain ⟨j1, j2, j3, j4⟩ := c2 s e2 hcs
          cases s with
          | none =>
            refine ⟨left db e1 + 1, ?_, fun x' e' h => ?_⟩
            · rw [nextFlat, hr]
              simp only
              rw [hcs]
              exact fun h => by cases h
            · rw [nextFlat, hr] at h
              simp only at h
              rw [hcs] at h
              cases h
              refine ⟨j1, .inr ⟨(fun h => by cases h), Relation.TransGen.single (closer_read ?_)⟩⟩
              have := j3 rfl
              rcases i3 with ⟨n', pre, h1, h2, h3⟩ | ⟨-, ⟨h, -⟩ | ⟨-, h⟩⟩
              · have hu : unread db e1 = unread db e := by unfold unread; rw [h3]
                omega
              · cases h
              · omega
          | some s =>
            obtain ⟨u1, u2⟩ := j4 s rfl
            have hold : unread db e2 = unread db e1 → ∀ x, x ∈ s ∨ x ∈ e2.stack → x ∈ e1.stack := by
              intro heq x hx
              rcases u2 heq x hx with h | h
              · cases h
              · exact h
            have hkeep : Closer db e2 e := hmeas e2 e2.stack j1.ahead.asc j2 (fun heq x hx => .inl (hold heq x (.inr hx)))
            by_cases hse : s.isEmpty = true
            · refine ⟨left db e1 + 1, ?_, fun x' e' h => ?_⟩
              · rw [nextFlat, hr]
                simp only
                rw [hcs]
                simp only
                rw [if_pos hse]
                exact fun h => by cases h
              · rw [nextFlat, hr] at h
                simp only at h
                rw [hcs] at h
                simp only at h
                rw [if_pos hse] at h
                cases h
                exact ⟨j1, .inr ⟨(fun h => by cases h), Relation.TransGen.single hkeep⟩⟩
            · rcases ends_cut hn.1 hn.2 u1 with ⟨er, hx⟩ | ⟨ex, hx, x1, x2⟩
              · refine ⟨left db e1 + 1, ?_, fun x' e' h => ?_⟩
                · rw [nextFlat, hr]
                  simp only
                  rw [hcs]
                  simp only
                  rw [if_neg hse, hx]
                  exact fun h => by cases h
                · rw [nextFlat, hr] at h
                  simp only at h
                  rw [hcs] at h
                  simp only at h
                  rw [if_neg hse, hx] at h
                  cases h
                  exact ⟨j1, .inr ⟨(fun h => by cases h), Relation.TransGen.single hkeep⟩⟩
              · obtain ⟨l1, m1, m2, m3⟩ := ahead_merge j1.ahead u1
                obtain ⟨l2, k1, k2, k3⟩ := ahead_merge m2 x1
                have hcl : Closer db { e2 with stack := l2 } e := by
                  refine hmeas e2 l2 k2.asc j2 (fun heq x hx => ?_)
                  rcases k3 x hx with h | h
                  · rcases m3 x h with h | h
                    · exact .inl (hold heq x (.inr h))
                    · exact .inl (hold heq x (.inl h))
                  · exact .inr (x2 x h)
                obtain ⟨K, K1, K2⟩ := ih { e2 with stack := l2 } hcl ⟨⟨j1.ginv.nodup, j1.ginv.range⟩, k2⟩
                have hgo : ∀ F, left db e1 ≤ F → nextFlat db (F + 1) e = nextFlat db F { e2 with stack := l2 } := by
                  intro F hF
                  rw [nextFlat, hr]
                  simp only
                  rw [hcm F hF, hcs]
                  simp only
                  rw [if_neg hse, hx]
                  simp only
                  rw [m1]
                  simp only
                  rw [k1]
                have hfin : nextFlat db (K + left db e1 + 1) e = nextFlat db K { e2 with stack := l2 } := by
                  rw [hgo _ (by omega)]
                  exact nextFlat_mono db K _ K1 _
                refine ⟨K + left db e1 + 1, by rw [hfin]; exact K1, fun x' e' h => ?_⟩
                rw [hfin] at h
                obtain ⟨v1, v2⟩ := K2 x' e' h
                refine ⟨v1, v2.imp_right fun ⟨v3, v4⟩ => ⟨v3, ?_⟩⟩
                exact Relation.TransGen.tail v4 hcl

theorem flat_over (db : Db) (f : Nat) {e : NetEnum} (h1 : e.nodes = []) (h2 : e.stack = []) : nextNetworkFlat db (f + 1) e = .ok (.done, e) := by
  have h : nextNetworkRaw db true e = .ok (.done, e) := by
    obtain ⟨flt, a, nodes, vis, stk, g6, g4⟩ := e
    simp only at h1 h2
    subst h1 h2
    rfl
  show nextFlat db (f + 1) e = _
  rw [nextFlat, h]

theorem calls_over (db : Db) (f : Nat) {e : NetEnum} (h1 : e.nodes = []) (h2 : e.stack = []) : ∀ k,
    calls (nextNetworkFlat db (f + 1)) k e = .ok (List.replicate k .done, e) := by
  intro k
  induction k with
  | zero => rfl
  | succ k ih => rw [calls, flat_over db f h1 h2]; simp only; rw [ih]; rfl

/-- Any number of calls. -/
theorem calls_flat (db : Db) (e : NetEnum) : RInv db e → ∃ K, ∀ f0, K ≤ f0 → ∀ k, calls (nextNetworkFlat db f0) k e ≠ .error .diverge ∧
    ∀ os s, calls (nextNetworkFlat db f0) k e = .ok (os, s) → (os.filter (· ≠ .done)).length ≤ K ∧ ∀ a b, os = a ++ .done :: b → ∀ x ∈ b, x = .done := by
  induction e using (closer_wf db).transGen.induction with
  | _ e ih =>
    intro hi
    obtain ⟨K1, n1, n2⟩ := nextFlat_ends db e hi
    have hsame : ∀ f0, K1 ≤ f0 → nextNetworkFlat db f0 e = nextFlat db K1 e := by
      intro f0 hf
      obtain ⟨j, rfl⟩ : ∃ j, f0 = K1 + j := ⟨f0 - K1, by omega⟩
      exact nextFlat_mono db K1 e n1 j
    have zero : ∀ (next : NetEnum → Res (Next Network × NetEnum)) (K : Nat), calls next 0 e ≠ .error .diverge ∧
        ∀ os s, calls next 0 e = .ok (os, s) → (os.filter (· ≠ .done)).length ≤ K ∧ ∀ a b, os = a ++ .done :: b → ∀ x ∈ b, x = .done := by
      intro next K
      refine ⟨(fun h => by cases h), fun os s h => ?_⟩
      cases h
      exact ⟨by simp, fun a b h => absurd (congrArg List.length h) (by simp)⟩
    cases hx : nextFlat db K1 e with
    | error x =>
      refine ⟨K1, fun f0 hf k => ?_⟩
      cases k with
      | zero => exact zero _ _
      | succ k =>
        rw [calls, hsame f0 hf, hx]
        rw [hx] at n1
        exact ⟨fun h => n1 (by cases h; rfl), fun os s h => by cases h⟩
    | ok r =>
      obtain ⟨x, e1⟩ := r
      obtain ⟨i1, i2⟩ := n2 x e1 hx
      rcases i2 with ⟨rfl, i3, i4⟩ | ⟨i3, i4⟩
      · refine ⟨K1 + 1, fun f0 hf k => ?_⟩
        cases k with
        | zero => exact zero _ _
        | succ k =>
          obtain ⟨f, rfl⟩ : ∃ f, f0 = f + 1 := ⟨f0 - 1, by omega⟩
          rw [calls, hsame _ (by omega), hx]
          simp only
          rw [calls_over db f i3 i4]
          refine ⟨(fun h => by cases h), fun os s h => ?_⟩
          cases h
          have hall : ∀ x ∈ (Next.done : Next Network) :: List.replicate k .done, x = .done := by
            intro x hx
            rcases List.mem_cons.mp hx with rfl | hx
            · rfl
            · exact List.eq_of_mem_replicate hx
          refine ⟨?_, fun a b hab x hxb => hall x (by rw [hab]; simp [hxb])⟩
          rw [List.filter_eq_nil_iff.mpr (fun x hx => by rw [hall x hx]; simp)]
          simp
      · obtain ⟨K2, c⟩ := ih e1 i4 i1
        refine ⟨K1 + K2 + 1, fun f0 hf k => ?_⟩
        cases k with
        | zero => exact zero _ _
        | succ k =>
          obtain ⟨c1, c2⟩ := c f0 (by omega) k
          rw [calls, hsame _ (by omega), hx]
          simp only
          cases hc : calls (nextNetworkFlat db f0) k e1 with
          | error y =>
            rw [hc] at c1
            exact ⟨fun h => c1 (by cases h; rfl), fun os s h => by cases h⟩
          | ok r =>
            obtain ⟨os, s⟩ := r
            obtain ⟨d1, d2⟩ := c2 os s hc
            refine ⟨(fun h => by cases h), fun os' s' h => ?_⟩
            cases h
            constructor
            · rw [List.filter_cons_of_pos (by simpa using i3), List.length_cons]
              omega
            · intro a b hab y hy
              cases a with
              | nil =>
                obtain ⟨h, -⟩ := List.cons.inj hab
                exact absurd h i3
              | cons z a =>
                obtain ⟨-, h5⟩ := List.cons.inj hab
                exact d2 a b h5 y hy

end Loc
