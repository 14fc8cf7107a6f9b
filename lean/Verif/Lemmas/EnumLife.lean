import Verif.Model.EnumLife
import Verif.Lemmas.Lifetime
import Verif.Props.Network
/-
Reference counts while networks are cut up and enumerated; the functions of `Model/EnumLife.lean` compute the same as
those on networks.
-/
namespace Loc
open Spec Props

/-- Both succeed with related results, or both fail in the same way; no released object is accessed. -/
def Sim {α β : Type} (r : LRes α) (p : Res β) (R : α → β → Prop) : Prop :=
  (∃ a b, r = .ok a ∧ p = .ok b ∧ R a b) ∨ ∃ e, r = .error (.other e) ∧ p = .error e

theorem Sim.ok {α β : Type} {a : α} {b : β} {R : α → β → Prop} (h : R a b) : Sim (.ok a) (.ok b) R := .inl ⟨a, b, rfl, rfl, h⟩
theorem Sim.fail {α β : Type} {e : Fault} {R : α → β → Prop} : Sim (.error (.other e)) (.error e) R := .inr ⟨e, rfl, rfl⟩

theorem Sim.mono {α β : Type} {r : LRes α} {p : Res β} {R S : α → β → Prop} (h : Sim r p R) (hf : ∀ a b, R a b → S a b) : Sim r p S := by
  rcases h with ⟨a, b, h1, h2, h3⟩ | h
  · exact .inl ⟨a, b, h1, h2, hf _ _ h3⟩
  · exact .inr h

theorem lbind_ok {α β : Type} (a : α) (f : α → LRes β) : ((Except.ok a : LRes α) >>= f) = f a := rfl
theorem lbind_err {α β : Type} (e : LFault) (f : α → LRes β) : ((Except.error e : LRes α) >>= f) = .error e := rfl
theorem lpure {α : Type} (a : α) : (pure a : LRes α) = .ok a := rfl
theorem lthrow {α : Type} (e : LFault) : (throw e : LRes α) = .error e := rfl

/-! ### single objects -/

theorem deref_ok {h : Heap} {i : Nat} {n : Network} (hi : 0 < refsOf h i) (hn : netAt h i = some n) : deref h i = .ok n := by
  unfold refsOf at hi
  unfold netAt at hn
  unfold deref
  cases e : h[i]? with
  | none => rw [e] at hi; simp at hi
  | some p =>
    obtain ⟨m, k⟩ := p
    rw [e] at hi hn
    simp only [Option.map_some, Option.some.injEq] at hi hn ⊢
    rw [if_neg (by omega), hn]

theorem ref_ok {h : Heap} {i : Nat} (hi : 0 < refsOf h i) :
    ∃ h', ref h i = .ok h' ∧ (∀ j, refsOf h' j = refsOf h j + one i j) ∧ ∀ j, netAt h' j = netAt h j := by
  have hs := ref_spec hi
  cases hr : ref h i with
  | ok h' => rw [hr] at hs; exact ⟨h', rfl, hs⟩
  | error e =>
    rw [hr] at hs
    cases e with
    | freed => exact hs.elim
    | other e =>
      unfold ref at hr
      split at hr
      · split at hr <;> cases hr
      · cases hr

theorem unref_ok {h : Heap} {i : Nat} (hi : 0 < refsOf h i) :
    ∃ h', unref h i = .ok h' ∧ (∀ j, refsOf h j = refsOf h' j + one i j) ∧ ∀ j, netAt h' j = netAt h j := by
  have hs := unref_spec hi
  cases hr : unref h i with
  | ok h' => rw [hr] at hs; exact ⟨h', rfl, hs⟩
  | error e =>
    rw [hr] at hs
    cases e with
    | freed => exact hs.elim
    | other e =>
      unfold unref at hr
      split at hr
      · split at hr <;> cases hr
      · cases hr

theorem one_self (i : Nat) : one i i = 1 := by simp [one]

/-- Contents of objects remain. -/
def Keeps (h h' : Heap) : Prop := ∀ j x, netAt h j = some x → netAt h' j = some x

theorem Keeps.refl (h : Heap) : Keeps h h := fun _ _ hx => hx
theorem Keeps.trans {h h' h'' : Heap} (h1 : Keeps h h') (h2 : Keeps h' h'') : Keeps h h'' := fun j x hx => h2 j x (h1 j x hx)
theorem Keeps.same {h h' : Heap} (h1 : ∀ j, netAt h' j = netAt h j) : Keeps h h' := fun j x hx => (h1 j).trans hx

/-- The objects of a list have these contents. -/
def Cont (h : Heap) (l : List Nat) (ns : List Network) : Prop := l.map (netAt h) = ns.map some

theorem Cont.keeps {h h' : Heap} {l : List Nat} {ns : List Network} (hc : Cont h l ns) (hk : Keeps h h') : Cont h' l ns := by
  unfold Cont at *
  rw [← hc]
  refine List.map_congr_left fun i hi => ?_
  have : netAt h i ∈ l.map (netAt h) := List.mem_map_of_mem hi
  rw [hc] at this
  obtain ⟨x, -, hx⟩ := List.mem_map.mp this
  rw [← hx]
  exact hk i x hx.symm

theorem Cont.length {h : Heap} {l : List Nat} {ns : List Network} (hc : Cont h l ns) : l.length = ns.length := by
  have := congrArg List.length hc
  simpa using this

theorem Cont.nil (h : Heap) : Cont h [] [] := rfl

theorem Cont.cons {h : Heap} {i : Nat} {n : Network} {l : List Nat} {ns : List Network} (hn : netAt h i = some n) (hc : Cont h l ns) :
    Cont h (i :: l) (n :: ns) := by
  unfold Cont at *
  rw [List.map_cons, List.map_cons, hn, hc]

theorem Cont.uncons {h : Heap} {i : Nat} {l : List Nat} {ns : List Network} (hc : Cont h (i :: l) ns) :
    ∃ n ns', ns = n :: ns' ∧ netAt h i = some n ∧ Cont h l ns' := by
  cases ns with
  | nil => cases hc
  | cons n ns =>
    unfold Cont at hc
    rw [List.map_cons, List.map_cons, List.cons.injEq] at hc
    exact ⟨n, ns, rfl, hc.1, hc.2⟩

theorem Cont.of_nil {h : Heap} {ns : List Network} (hc : Cont h [] ns) : ns = [] := by
  cases ns with
  | nil => rfl
  | cons n ns => cases hc

theorem Cont.drop {h : Heap} {l : List Nat} {ns : List Network} (hc : Cont h l ns) (k : Nat) : Cont h (l.drop k) (ns.drop k) := by
  unfold Cont at *
  rw [List.map_drop, List.map_drop, hc]

theorem Cont.take {h : Heap} {l : List Nat} {ns : List Network} (hc : Cont h l ns) (k : Nat) : Cont h (l.take k) (ns.take k) := by
  unfold Cont at *
  rw [List.map_take, List.map_take, hc]

theorem Cont.append {h : Heap} {l l' : List Nat} {ns ns' : List Network} (hc : Cont h l ns) (hc' : Cont h l' ns') : Cont h (l ++ l') (ns ++ ns') := by
  unfold Cont at *
  rw [List.map_append, List.map_append, hc, hc']

theorem cont_exists {h : Heap} : ∀ {l : List Nat}, (∀ i ∈ l, 0 < refsOf h i) → ∃ ns, Cont h l ns := by
  intro l
  induction l with
  | nil => exact fun _ => ⟨[], rfl⟩
  | cons i l ih =>
    intro hl
    obtain ⟨ns, hns⟩ := ih fun j hj => hl j (List.mem_cons_of_mem _ hj)
    have hi := hl i (by simp)
    unfold refsOf at hi
    cases e : h[i]? with
    | none => rw [e] at hi; simp at hi
    | some p => exact ⟨p.1 :: ns, .cons (by unfold netAt; rw [e]; rfl) hns⟩

/-- The list holds one reference for every element, and `R` counts the other ones. -/
def Bal (h : Heap) (l : List Nat) (R : Nat → Nat) : Prop := ∀ j, refsOf h j = l.count j + R j

theorem Bal.pos {h : Heap} {l : List Nat} {R : Nat → Nat} (hb : Bal h l R) {i : Nat} (hi : i ∈ l) : 0 < refsOf h i := by
  rw [hb]
  have := List.count_pos_iff.mpr hi
  omega

theorem Bal.pos' {h : Heap} {l : List Nat} {R : Nat → Nat} (hb : Bal h l R) {i : Nat} (hi : 0 < R i) : 0 < refsOf h i := by
  rw [hb]; omega

theorem unrefAll_ok : ∀ (l : List Nat) (h : Heap) (R : Nat → Nat), Bal h l R →
    ∃ h', unrefAll h l = .ok h' ∧ (∀ j, refsOf h' j = R j) ∧ ∀ j, netAt h' j = netAt h j := by
  intro l
  induction l with
  | nil => exact fun h R hb => ⟨h, rfl, fun j => by rw [hb]; simp, fun _ => rfl⟩
  | cons i l ih =>
    intro h R hb
    obtain ⟨h1, e1, r1, n1⟩ := unref_ok (hb.pos (i := i) (by simp))
    obtain ⟨h2, e2, r2, n2⟩ := ih h1 R fun j => by
      have := hb j
      have := r1 j
      rw [count_cons_one] at *
      omega
    exact ⟨h2, by rw [unrefAll, e1]; exact e2, r2, fun j => (n2 j).trans (n1 j)⟩

/-! ### lists -/

theorem mapM_deref {h : Heap} : ∀ {l : List Nat} {ns : List Network}, (∀ i ∈ l, 0 < refsOf h i) → Cont h l ns →
    l.mapM (deref h) = .ok ns := by
  intro l
  induction l with
  | nil => intro ns _ hc; rw [hc.of_nil]; rfl
  | cons i l ih =>
    intro ns hl hc
    obtain ⟨n, ns', rfl, h1, h2⟩ := hc.uncons
    rw [List.mapM_cons, deref_ok (hl i (by simp)) h1, lbind_ok, ih (fun j hj => hl j (List.mem_cons_of_mem _ hj)) h2]
    rfl

theorem oFind_eq {h : Heap} {l : List Nat} {ns : List Network} {i : Nat} {n : Network} (hl : ∀ i ∈ l, 0 < refsOf h i) (hc : Cont h l ns)
    (hi : 0 < refsOf h i) (hn : netAt h i = some n) : oFind h l i = liftRes (listFind ns n) := by
  unfold oFind
  rw [deref_ok hi hn, lbind_ok, mapM_deref hl hc, lbind_ok]

theorem findLoop_total (l : NetList) (n : Network) : ∀ (fuel : Nat) (lo hi i : Int), 0 ≤ lo → hi < l.length → lo ≤ hi + 1 → hi + 1 - lo < fuel → 0 ≤ i → i ≤ l.length →
    ∃ k f, findLoop l n lo hi i fuel = .ok (k, f) ∧ 0 ≤ k ∧ k ≤ l.length := by
  intro fuel
  induction fuel with
  | zero =>
    intro lo hi i h1 h2 h0 h3 h4 h5
    omega
  | succ fuel ih =>
    intro lo hi i h1 h2 h0 h3 h4 h5
    rw [findLoop]
    by_cases hc : lo ≤ hi
    · rw [if_pos hc]
      simp only
      rw [if_neg (by omega)]
      have hlt : ((lo + hi) / 2).toNat < l.length := by omega
      rw [List.getElem?_eq_getElem hlt]
      simp only
      split
      · exact ⟨_, _, rfl, by omega, by omega⟩
      · split
        · exact ih _ _ _ (by omega) h2 (by omega) (by omega) (by omega) (by omega)
        · exact ih _ _ _ h1 (by omega) (by omega) (by omega) (by omega) (by omega)
    · rw [if_neg hc]
      exact ⟨_, _, rfl, h4, h5⟩

theorem listFind_total (l : NetList) (n : Network) : ∃ k f, listFind l n = .ok (k, f) ∧ 0 ≤ k ∧ k ≤ l.length := by
  unfold listFind
  by_cases h0 : l.length = 0
  · rw [if_pos h0]; exact ⟨_, _, rfl, by omega, by omega⟩
  · rw [if_neg h0]
    simp only
    have hlt : ((l.length : Int) - 1).toNat < l.length := by omega
    rw [List.getElem?_eq_getElem hlt]
    simp only
    split
    · exact ⟨_, _, rfl, by omega, by omega⟩
    · split
      · exact ⟨_, _, rfl, by omega, by omega⟩
      · exact findLoop_total l n _ _ _ _ (by omega) (by omega) (by omega) (by omega) (by omega) (by omega)

theorem listPush_total (l : NetList) (n : Network) : ∃ l', listPush l n = .ok l' := by
  obtain ⟨k, f, h1, h2, h3⟩ := listFind_total l n
  unfold listPush
  rw [h1]
  cases f with
  | true => exact ⟨l, rfl⟩
  | false =>
    refine ⟨l.take k.toNat ++ n :: l.drop k.toNat, ?_⟩
    show (if k < 0 ∨ k > l.length then (throw Fault.oob : Res NetList) else pure (l.take k.toNat ++ n :: l.drop k.toNat)) = _
    rw [if_neg (by omega)]
    rfl

/-- Pushing an object: the list holds a reference to everything on it. -/
theorem lPush_sim {h : Heap} {l : List Nat} {ns : List Network} {R : Nat → Nat} {i : Nat} {n : Network} (hb : Bal h l R) (hc : Cont h l ns)
    (hi : 0 < R i) (hn : netAt h i = some n) :
    ∃ h' l' ns', lPush h l i = .ok (h', l') ∧ listPush ns n = .ok ns' ∧ Bal h' l' R ∧ (∀ j, netAt h' j = netAt h j) ∧ Cont h' l' ns' := by
  obtain ⟨k, f, h1, h2, h3⟩ := listFind_total ns n
  unfold lPush listPush
  rw [oFind_eq (fun i hi => hb.pos hi) hc (hb.pos' hi) hn, h1]
  cases f with
  | true => exact ⟨h, l, ns, rfl, rfl, hb, fun _ => rfl, hc⟩
  | false =>
    obtain ⟨h', e1, e2, e3⟩ := ref_ok (hb.pos' hi)
    refine ⟨h', l.take k.toNat ++ i :: l.drop k.toNat, ns.take k.toNat ++ n :: ns.drop k.toNat, ?_, ?_, ?_, e3, ?_⟩
    · show (if k < 0 ∨ k > l.length then (throw (.other .oob) : LRes (Heap × List Nat)) else ref h i >>= fun h => pure (h, l.take k.toNat ++ i :: l.drop k.toNat)) = _
      rw [if_neg (by rw [hc.length]; omega), e1]
      rfl
    · show (if k < 0 ∨ k > ns.length then (throw Fault.oob : Res NetList) else pure (ns.take k.toNat ++ n :: ns.drop k.toNat)) = _
      rw [if_neg (by omega)]
      rfl
    · intro j
      rw [e2, hb, List.count_append, count_cons_one]
      have : l.count j = (l.take k.toNat).count j + (l.drop k.toNat).count j := by rw [← List.count_append, List.take_append_drop]
      omega
    · have hk := Keeps.same e3
      exact ((hc.take _).keeps hk).append (.cons (hk _ _ hn) ((hc.drop _).keeps hk))

theorem lContains_sim {h : Heap} {l : List Nat} {ns : List Network} {i : Nat} {n : Network} (hl : ∀ i ∈ l, 0 < refsOf h i) (hc : Cont h l ns)
    (hi : 0 < refsOf h i) (hn : netAt h i = some n) : ∃ b, lContains h l i = .ok b ∧ listContains ns n = .ok b := by
  obtain ⟨k, f, h1, -⟩ := listFind_total ns n
  unfold lContains listContains
  rw [oFind_eq hl hc hi hn, h1]
  exact ⟨f, rfl, rfl⟩

theorem lMerge_sim : ∀ (other : List Nat) (os : List Network) (h : Heap) (l : List Nat) (ns : List Network) (R : Nat → Nat),
    Bal h l R → Cont h l ns → (∀ i ∈ other, 0 < R i) → Cont h other os →
    ∃ h' l' ns', lMerge h l other = .ok (h', l') ∧ listMerge ns os = .ok ns' ∧ Bal h' l' R ∧ (∀ j, netAt h' j = netAt h j) ∧ Cont h' l' ns' := by
  intro other
  induction other with
  | nil =>
    intro os h l ns R hb hc _ ho
    rw [ho.of_nil]
    exact ⟨h, l, ns, rfl, rfl, hb, fun _ => rfl, hc⟩
  | cons i other ih =>
    intro os h l ns R hb hc hr ho
    obtain ⟨n, os, rfl, o1, o2⟩ := ho.uncons
    obtain ⟨h1, l1, ns1, a1, a2, a3, a4, a5⟩ := lPush_sim hb hc (hr i (by simp)) o1
    obtain ⟨h2, l2, ns2, b1, b2, b3, b4, b5⟩ := ih os h1 l1 ns1 R a3 a5 (fun j hj => hr j (List.mem_cons_of_mem _ hj)) (o2.keeps (.same a4))
    refine ⟨h2, l2, ns2, ?_, ?_, b3, fun j => (b4 j).trans (a4 j), b5⟩
    · rw [lMerge, a1]; exact b1
    · rw [listMerge, a2]; exact b2

/-! ### exclusion -/

theorem newNetwork_prefix {a : Addr} {p : Nat} {n : Network} (h : newNetwork a p = .ok n) : netPrefix n = p ∧ p ≤ 128 := by
  have h1 := (new_canonical a p n h).2.2.1
  refine ⟨h1, ?_⟩
  by_cases hp : famStart a + p ≤ 128
  · omega
  · rw [newNetwork_err a p hp] at h; cases h

theorem newNetwork_fails {a : Addr} {p : Nat} {e : Fault} (h : newNetwork a p = .error e) : e = .err EINVAL := by
  by_cases hp : famStart a + p ≤ 128
  · obtain ⟨n, hn, -⟩ := newNetwork_ok a p hp
    rw [hn] at h; cases h
  · rw [newNetwork_err a p hp] at h; cases h; rfl

theorem copyProps_prefix (d s : Network) : netPrefix (copyProps d s) = netPrefix d := by
  unfold copyProps setFlag netPrefix
  have h1 : ∀ d : Network, (if s.asn ≠ 0 then setAsn d s.asn else d).family = d.family ∧ (if s.asn ≠ 0 then setAsn d s.asn else d).pfx = d.pfx := by
    intro d; split <;> exact ⟨rfl, rfl⟩
  have h2 : (ignoreErr (setCountryCode d (some (countryCode s))) d).family = d.family ∧ (ignoreErr (setCountryCode d (some (countryCode s))) d).pfx = d.pfx := by
    unfold setCountryCode
    split
    · exact ⟨rfl, rfl⟩
    · exact ⟨rfl, rfl⟩
    · split
      · exact ⟨rfl, rfl⟩
      · split <;> exact ⟨rfl, rfl⟩
  simp only [(h1 _).1, (h1 _).2, h2.1, h2.2]

theorem subnets_eq (n : Network) : subnets n =
    if !validPrefix n.first (netPrefix n + 1) then .error (.err EINVAL)
    else match newNetwork n.first (netPrefix n + 1) with
      | .error e => .error e
      | .ok s1 => match newNetwork (addrInc s1.last) (netPrefix n + 1) with
        | .error e => .error e
        | .ok s2 => .ok (copyProps s1 n, copyProps s2 n) := by
  unfold subnets
  cases hv : validPrefix n.first (netPrefix n + 1) with
  | false => simp only [hv]; rfl
  | true =>
    cases h1 : newNetwork n.first (netPrefix n + 1) with
    | error e => simp [bind, Except.bind, h1, hv]
    | ok s1 =>
      cases h2 : newNetwork (addrInc s1.last) (netPrefix n + 1) with
      | error e => simp [bind, Except.bind, h1, h2, hv]
      | ok s2 => simp [bind, Except.bind, pure, Except.pure, h1, h2, hv]

theorem lSubnets_sim {h : Heap} {i : Nat} {n : Network} (hi : 0 < refsOf h i) (hn : netAt h i = some n) :
    (∃ h' s1 s2 x1 x2, lSubnets h i = .ok (h', .both s1 s2) ∧ subnets n = .ok (x1, x2) ∧ netAt h' s1 = some x1 ∧ netAt h' s2 = some x2 ∧
      (∀ j, refsOf h' j = refsOf h j + one s1 j + one s2 j) ∧ Keeps h h' ∧ netPrefix x1 = netPrefix n + 1 ∧ netPrefix x2 = netPrefix n + 1 ∧
      netPrefix n + 1 ≤ 128) ∨
    (∃ h' s1 e, lSubnets h i = .ok (h', .first s1 e) ∧ subnets n = .error (.err e) ∧ (∀ j, refsOf h' j = refsOf h j + one s1 j) ∧ Keeps h h') ∨
    (∃ e, lSubnets h i = .ok (h, .neither e) ∧ subnets n = .error (.err e)) := by
  unfold lSubnets
  rw [deref_ok hi hn, lbind_ok, subnets_eq]
  cases hv : validPrefix n.first (netPrefix n + 1) with
  | false => exact .inr (.inr ⟨EINVAL, rfl, rfl⟩)
  | true =>
    simp only [Bool.not_true, Bool.false_eq_true, if_false]
    cases h1 : newNetwork n.first (netPrefix n + 1) with
    | error e => rw [newNetwork_fails h1]; exact .inr (.inr ⟨EINVAL, rfl, rfl⟩)
    | ok s1 =>
      simp only
      cases h2 : newNetwork (addrInc s1.last) (netPrefix n + 1) with
      | error e =>
        rw [newNetwork_fails h2]
        obtain ⟨a1, a2, a3⟩ := alloc_spec h s1
        exact .inr (.inl ⟨_, _, EINVAL, rfl, rfl, a1, a3⟩)
      | ok s2 =>
        obtain ⟨a1, a2, a3⟩ := alloc_spec h (copyProps s1 n)
        obtain ⟨b1, b2, b3⟩ := alloc_spec (alloc h (copyProps s1 n)).1 (copyProps s2 n)
        refine .inl ⟨_, _, _, _, _, rfl, rfl, b3 _ _ a2, b2, fun j => ?_, Keeps.trans a3 b3, ?_, ?_, (newNetwork_prefix h1).2⟩
        · rw [b1, a1]
        · rw [copyProps_prefix, (newNetwork_prefix h1).1]
        · rw [copyProps_prefix, (newNetwork_prefix h2).1]

/-- The return value of an exclusion: errors are numbers. -/
def settle (x : NetList × Res Unit) : Res (NetList × Option Nat) :=
  match x with
  | (l, .ok ()) => .ok (l, none)
  | (l, .error (.err e)) => .ok (l, some e)
  | (_, .error f) => .error f

/-- Cutting: the pieces on the list are held by it, everything else is as before. -/
def CutRel (h : Heap) (R : Nat → Nat) (a : Heap × List Nat × Option Nat) (b : NetList × Option Nat) : Prop :=
  a.2.2 = b.2 ∧ Bal a.1 a.2.1 R ∧ Keeps h a.1 ∧ Cont a.1 a.2.1 b.1

theorem lExcludeRec_sim (other : Nat) (m : Network) : ∀ (fuel : Nat) (h : Heap) (i : Nat) (n : Network) (l : List Nat) (ns : NetList) (R : Nat → Nat),
    Bal h l R → Cont h l ns → 0 < R i → netAt h i = some n → 0 < R other → netAt h other = some m → 0 < fuel → 130 ≤ fuel + netPrefix n →
    ∃ a b, lExcludeRec other fuel h i l = .ok a ∧ settle (excludeRec n m ns fuel) = .ok b ∧ CutRel h R a b := by
  intro fuel
  induction fuel with
  | zero => intro h i n l ns R _ _ _ _ _ _ hf; omega
  | succ fuel ih =>
    intro h i n l ns R hb hc hi hn ho hm _ hf
    rw [lExcludeRec, excludeRec]
    rcases lSubnets_sim (hb.pos' hi) hn with ⟨h1, s1, s2, x1, x2, e1, e2, n1, n2, r1, k1, p1, p2, p3⟩ | ⟨h1, s1, e, e1, e2, r1, k1⟩ | ⟨e, e1, e2⟩
    · rw [e1, e2, lbind_ok]
      simp only
      have hb1 : Bal h1 l (fun j => R j + one s1 j + one s2 j) := fun j => by rw [r1, hb]; beta_reduce; omega
      have hc1 := hc.keeps k1
      have q1 : 0 < R s1 + one s1 s1 + one s2 s1 := by rw [one_self]; omega
      have q2 : 0 < R s2 + one s1 s2 + one s2 s2 := by rw [one_self]; omega
      have qo : 0 < R other + one s1 other + one s2 other := by omega
      rw [deref_ok (hb1.pos' qo) (k1 _ _ hm), lbind_ok, deref_ok (hb1.pos' q1) n1, lbind_ok, deref_ok (hb1.pos' q2) n2, lbind_ok]
      -- the end
      have fin : ∀ (r : LRes (Heap × List Nat × Option Nat)) (p : NetList × Res Unit),
          (∃ a b, r = .ok a ∧ settle p = .ok b ∧ CutRel h1 (fun j => R j + one s1 j + one s2 j) a b) →
          ∃ a b, (r >>= fun x => match x with
            | (h, list, r) => unref h s1 >>= fun h => unref h s2 >>= fun h => pure (h, list, r)) = .ok a ∧ settle p = .ok b ∧ CutRel h R a b := by
        rintro r p ⟨⟨h2, l2, r2⟩, b, rfl, t2, t3, t4, t5, t6⟩
        simp only at t3 t4 t5 t6
        obtain ⟨h3, u1, u2, u3⟩ := unref_ok (t4.pos' q1)
        obtain ⟨h4, v1, v2, v3⟩ := unref_ok (h := h3) (i := s2) (by
          have := u2 s2
          have := t4 s2
          beta_reduce at this
          rw [one_self] at this
          omega)
        refine ⟨(h4, l2, r2), b, ?_, t2, t3, fun j => ?_, ?_, ?_⟩
        · rw [lbind_ok]; simp only; rw [u1, lbind_ok, v1]; rfl
        · have := u2 j
          have := v2 j
          have := t4 j
          (try simp only at *)
          omega
        · exact (k1.trans t5).trans ((Keeps.same u3).trans (.same v3))
        · exact t6.keeps ((Keeps.same u3).trans (.same v3))
      have push : ∀ (s : Nat) (x : Network), 0 < R s + one s1 s + one s2 s → netAt h1 s = some x → ∃ h' l' ns', lPush h1 l s = .ok (h', l') ∧
          listPush ns x = .ok ns' ∧ Bal h' l' (fun j => R j + one s1 j + one s2 j) ∧ (∀ j, netAt h' j = netAt h1 j) ∧ Cont h' l' ns' :=
        fun s x hs hx => lPush_sim hb1 hc1 hs hx
      refine fin _ _ ?_
      by_cases c1 : netCmp m x1 = 0
      · rw [if_pos c1, if_pos c1]
        obtain ⟨h2, l2, ns2, g1, g2, g3, g4, g5⟩ := push s2 x2 q2 n2
        rw [g1, g2]
        exact ⟨_, _, rfl, rfl, rfl, g3, .same g4, g5⟩
      · rw [if_neg c1, if_neg c1]
        by_cases c2 : netCmp m x2 = 0
        · rw [if_pos c2, if_pos c2]
          obtain ⟨h2, l2, ns2, g1, g2, g3, g4, g5⟩ := push s1 x1 q1 n1
          rw [g1, g2]
          exact ⟨_, _, rfl, rfl, rfl, g3, .same g4, g5⟩
        · rw [if_neg c2, if_neg c2]
          by_cases c3 : isSubnet x1 m = true
          · rw [if_pos c3, if_pos c3]
            obtain ⟨h2, l2, ns2, g1, g2, g3, g4, g5⟩ := push s2 x2 q2 n2
            rw [g1, g2, lbind_ok]
            simp only
            obtain ⟨a, b, w1, w2, w3, w4, w5, w6⟩ := ih h2 s1 x1 l2 ns2 _ g3 g5 q1 ((g4 _).trans n1) qo ((g4 _).trans (k1 _ _ hm)) (by omega) (by omega)
            exact ⟨a, b, w1, w2, w3, w4, (Keeps.same g4).trans w5, w6⟩
          · rw [if_neg c3, if_neg c3]
            by_cases c4 : isSubnet x2 m = true
            · rw [if_pos c4, if_pos c4]
              obtain ⟨h2, l2, ns2, g1, g2, g3, g4, g5⟩ := push s1 x1 q1 n1
              rw [g1, g2, lbind_ok]
              simp only
              obtain ⟨a, b, w1, w2, w3, w4, w5, w6⟩ := ih h2 s2 x2 l2 ns2 _ g3 g5 q2 ((g4 _).trans n2) qo ((g4 _).trans (k1 _ _ hm)) (by omega) (by omega)
              exact ⟨a, b, w1, w2, w3, w4, (Keeps.same g4).trans w5, w6⟩
            · rw [if_neg c4, if_neg c4]
              exact ⟨_, _, rfl, rfl, rfl, hb1, .refl _, hc1⟩
    · rw [e1, e2, lbind_ok]
      simp only
      obtain ⟨h2, u1, u2, u3⟩ := unref_ok (h := h1) (i := s1) (by rw [r1, one_self]; omega)
      rw [u1, lbind_ok]
      refine ⟨_, _, rfl, rfl, rfl, fun j => ?_, k1.trans (.same u3), hc.keeps (k1.trans (.same u3))⟩
      have := u2 j
      have := r1 j
      have := hb j
      (try simp only at *)
      omega
    · rw [e1, e2, lbind_ok]
      exact ⟨_, _, rfl, rfl, rfl, hb, .refl _, hc⟩

theorem lExcludeToList_sim {h : Heap} {i other : Nat} {n m : Network} {l : List Nat} {ns : NetList} {R : Nat → Nat}
    (hb : Bal h l R) (hc : Cont h l ns) (hi : 0 < R i) (hn : netAt h i = some n) (ho : 0 < R other) (hm : netAt h other = some m) :
    ∃ a b, lExcludeToList h i other l = .ok a ∧ settle (excludeToList n m ns) = .ok b ∧ CutRel h R a b := by
  unfold lExcludeToList excludeToList
  rw [deref_ok (hb.pos' hi) hn, lbind_ok, deref_ok (hb.pos' ho) hm, lbind_ok]
  cases isSubnet n m with
  | false => exact ⟨_, _, rfl, rfl, rfl, hb, .refl _, hc⟩
  | true =>
    simp only [Bool.not_true, Bool.false_eq_true, if_false]
    by_cases c : netCmp n m = 0
    · rw [if_pos c, if_pos c]
      exact ⟨_, _, rfl, rfl, rfl, hb, .refl _, hc⟩
    · rw [if_neg c, if_neg c]
      exact lExcludeRec_sim other m excludeFuel h i n l ns R hb hc hi hn ho hm (by decide) (by unfold excludeFuel; omega)

/-- A list, or `NULL`. -/
def ListRel (h : Heap) (R : Nat → Nat) (a : Heap × Option (List Nat)) (b : Option NetList) : Prop :=
  Keeps h a.1 ∧ match a.2, b with
    | some l, some ns => Bal a.1 l R ∧ Cont a.1 l ns
    | none, none => Bal a.1 [] R
    | _, _ => False

/-- `NULL` stands for an error. -/
def orNull (x : Res NetList) : Res (Option NetList) :=
  match x with
  | .ok l => .ok (some l)
  | .error (.err _) => .ok none
  | .error e => .error e

theorem settle_cases {x : NetList × Res Unit} {b : NetList × Option Nat} (h : settle x = .ok b) :
    (b.2 = none ∧ x = (b.1, .ok ())) ∨ ∃ e, b.2 = some e ∧ x = (b.1, .error (.err e)) := by
  obtain ⟨l, r⟩ := x
  cases r with
  | ok u => cases h; exact .inl ⟨rfl, rfl⟩
  | error e =>
    cases e <;> first | (cases h; done) | (cases h; exact .inr ⟨_, rfl, rfl⟩)

theorem lExclude_sim {h : Heap} {i other : Nat} {n m : Network} {R : Nat → Nat}
    (hb : Bal h [] R) (hi : 0 < R i) (hn : netAt h i = some n) (ho : 0 < R other) (hm : netAt h other = some m) :
    ∃ a b, lExclude h i other = .ok a ∧ orNull (exclude n m) = .ok b ∧ ListRel h R a b := by
  obtain ⟨⟨h1, l, r⟩, b, e1, e2, e3, e4, e5, e6⟩ := lExcludeToList_sim hb (.nil h) hi hn ho hm
  unfold lExclude exclude
  rw [e1, lbind_ok]
  simp only at e3 e4 e5 e6 ⊢
  rcases settle_cases e2 with ⟨g1, g2⟩ | ⟨e, g1, g2⟩
  · rw [g2, e3, g1]
    exact ⟨_, _, rfl, rfl, e5, e4, e6⟩
  · rw [g2, e3, g1]
    obtain ⟨h2, u1, u2, u3⟩ := unrefAll_ok l h1 R e4
    simp only
    rw [u1]
    exact ⟨_, _, rfl, rfl, e5.trans (.same u3), fun j => by rw [u2]; simp⟩

theorem lCollectExcluded_sim (i : Nat) (n : Network) : ∀ (rest : List Nat) (rs : NetList) (h : Heap) (c : List Nat) (cs : NetList) (R : Nat → Nat),
    Bal h c R → Cont h c cs → 0 < R i → netAt h i = some n → (∀ s ∈ rest, 0 < R s) → Cont h rest rs →
    ∃ a b, lCollectExcluded i h c rest = .ok a ∧ orNull (excludeListCollect n cs rs) = .ok b ∧ ListRel h R a b := by
  intro rest
  induction rest with
  | nil =>
    intro rs h c cs R hb hc _ _ _ hr
    rw [hr.of_nil]
    exact ⟨_, _, rfl, rfl, .refl _, hb, hc⟩
  | cons s rest ih =>
    intro rs h c cs R hb hc hi hn hpos hr
    obtain ⟨m, rs, rfl, hm, hr'⟩ := hr.uncons
    rw [lCollectExcluded, excludeListCollect]
    have hs := hpos s (by simp)
    obtain ⟨h1, a1, a2, a3⟩ := ref_ok (hb.pos' hs)
    rw [a1, lbind_ok]
    have hk1 := Keeps.same a3
    have hb1 : Bal h1 c (fun j => R j + one s j) := fun j => by rw [a2, hb]; beta_reduce; omega
    obtain ⟨f, c1, c2⟩ := lContains_sim (i := s) (fun i hi => hb1.pos hi) (hc.keeps hk1) (hb1.pos' (by (try simp only); omega)) (hk1 _ _ hm)
    rw [c1, c2, lbind_ok]
    cases f with
    | true =>
      simp only [if_true]
      obtain ⟨h2, u1, u2, u3⟩ := unref_ok (hb1.pos' (i := s) (by (try simp only); omega))
      rw [u1, lbind_ok]
      have hk2 := hk1.trans (.same u3)
      obtain ⟨a, b, w1, w2, w3, w4⟩ := ih rs h2 c cs R (fun j => by have := u2 j; have := hb1 j; (try simp only at *); omega) (hc.keeps hk2) hi (hk2 _ _ hn)
        (fun t ht => hpos t (List.mem_cons_of_mem _ ht)) (hr'.keeps hk2)
      exact ⟨a, b, w1, w2, hk2.trans w3, w4⟩
    | false =>
      simp only [Bool.false_eq_true, if_false]
      obtain ⟨⟨h2, c', r⟩, b, e1, e2, e3, e4, e5, e6⟩ := lExcludeToList_sim (i := i) (other := s) hb1 (hc.keeps hk1) (by (try simp only); omega) (hk1 _ _ hn) (by (try simp only); omega) (hk1 _ _ hm)
      rw [e1, lbind_ok]
      simp only at e3 e4 e5 e6 ⊢
      rcases settle_cases e2 with ⟨g1, g2⟩ | ⟨e, g1, g2⟩
      · rw [g2, e3, g1]
        simp only
        obtain ⟨h3, u1, u2, u3⟩ := unref_ok (e4.pos' (i := s) (by (try simp only); omega))
        rw [u1, lbind_ok]
        have hk3 := (hk1.trans e5).trans (.same u3)
        obtain ⟨a, b', w1, w2, w3, w4⟩ := ih rs h3 c' b.1 R (fun j => by have := u2 j; have := e4 j; (try simp only at *); omega) (e6.keeps (.same u3)) hi (hk3 _ _ hn)
          (fun t ht => hpos t (List.mem_cons_of_mem _ ht)) (hr'.keeps hk3)
        exact ⟨a, b', w1, w2, hk3.trans w3, w4⟩
      · rw [g2, e3, g1]
        simp only
        obtain ⟨h3, u1, u2, u3⟩ := unrefAll_ok c' h2 _ e4
        rw [u1, lbind_ok]
        obtain ⟨h4, v1, v2, v3⟩ := unref_ok (h := h3) (i := s) (by rw [u2]; (try simp only); omega)
        rw [v1, lbind_ok]
        refine ⟨_, _, rfl, rfl, ((hk1.trans e5).trans (.same u3)).trans (.same v3), fun j => ?_⟩
        have := u2 j
        have := v2 j
        simp only [List.count_nil] at *
        omega

/-- The inner loop. -/
theorem lScan_sim (x : Nat) (nx : Network) : ∀ (rest : List Nat) (rs : NetList) (h : Heap) (c : List Nat) (cs : NetList) (k sm : Nat) (R : Nat → Nat),
    Bal h c R → Cont h c cs → 0 < R x → netAt h x = some nx → (∀ s ∈ rest, 0 < R s) → Cont h rest rs →
    ∃ h' c' cs' p sm', lScan x h c k sm rest = .ok (h', c', p, sm') ∧ Bal h' c' R ∧ Keeps h h' ∧ Cont h' c' cs' ∧
      ((p = true ∧ exclScan nx k sm rs = .passed sm' ∧ cs' = cs) ∨
       (p = false ∧ exclScan nx k sm rs = .dropped sm' ∧ cs' = cs) ∨
       (p = false ∧ ∃ m, exclScan nx k sm rs = .split m sm' ∧ cs' = (excludeToList nx m cs).1)) := by
  intro rest
  induction rest with
  | nil =>
    intro rs h c cs k sm R hb hc _ _ _ hr
    rw [hr.of_nil]
    exact ⟨h, c, cs, true, sm, rfl, hb, .refl _, hc, .inl ⟨rfl, rfl, rfl⟩⟩
  | cons s rest ih =>
    intro rs h c cs k sm R hb hc hi hn hpos hr
    obtain ⟨m, rs, rfl, hm, hr'⟩ := hr.uncons
    rw [lScan, exclScan]
    have hs := hpos s (by simp)
    obtain ⟨h1, a1, a2, a3⟩ := ref_ok (hb.pos' hs)
    have hk1 := Keeps.same a3
    have hb1 : Bal h1 c (fun j => R j + one s j) := fun j => by rw [a2, hb]; beta_reduce; omega
    have ps : 0 < R s + one s s := by omega
    have px : 0 < R x + one s x := by omega
    rw [a1, lbind_ok, deref_ok (hb1.pos' ps) (hk1 _ _ hm), lbind_ok, deref_ok (hb1.pos' px) (hk1 _ _ hn), lbind_ok]
    obtain ⟨h2, u1, u2, u3⟩ := unref_ok (hb1.pos' ps)
    have hk2 := hk1.trans (.same u3)
    have hb2 : Bal h2 c R := fun j => by have := u2 j; have := hb1 j; (try simp only at *); omega
    have hc2 := hc.keeps hk2
    by_cases c1 : isSubnet m nx = true
    · rw [if_pos c1, if_pos c1, u1, lbind_ok]
      exact ⟨h2, c, cs, false, sm, rfl, hb2, hk2, hc2, .inr (.inl ⟨rfl, rfl, rfl⟩)⟩
    · rw [if_neg c1, if_neg c1]
      by_cases c2 : overlaps m nx = true
      · rw [if_pos c2, if_pos c2]
        obtain ⟨⟨h3, c', r⟩, b, e1, e2, e3, e4, e5, e6⟩ := lExcludeToList_sim hb1 (hc.keeps hk1) px (hk1 _ _ hn) ps (hk1 _ _ hm)
        rw [e1, lbind_ok]
        simp only at e3 e4 e5 e6 ⊢
        obtain ⟨h4, v1, v2, v3⟩ := unref_ok (e4.pos' ps)
        rw [v1, lbind_ok]
        have hb1' : b.1 = (excludeToList nx m cs).1 := by
          rcases settle_cases e2 with ⟨-, g2⟩ | ⟨e, -, g2⟩ <;> rw [g2]
        refine ⟨h4, c', b.1, false, sm, rfl, fun j => ?_, (hk1.trans e5).trans (.same v3), e6.keeps (.same v3), .inr (.inr ⟨rfl, m, rfl, hb1'⟩)⟩
        have := v2 j
        have := e4 j
        (try simp only at *)
        omega
      · rw [if_neg c2, if_neg c2]
        simp only
        by_cases c3 : netCmp m nx > 0
        · rw [if_pos c3, if_pos c3, u1, lbind_ok]
          exact ⟨h2, c, cs, true, sm, rfl, hb2, hk2, hc2, .inl ⟨rfl, rfl, rfl⟩⟩
        · rw [if_neg c3, if_neg c3]
          by_cases c4 : netCmp m nx < 0
          · rw [if_pos c4, if_pos c4, u1, lbind_ok]
            obtain ⟨h3, c', cs', p, sm', w1, w2, w3, w4, w5⟩ := ih rs h2 c cs (k + 1) k R hb2 hc2 hi (hk2 _ _ hn) (fun t ht => hpos t (List.mem_cons_of_mem _ ht)) (hr'.keeps hk2)
            exact ⟨h3, c', cs', p, sm', w1, w2, hk2.trans w3, w4, w5⟩
          · rw [if_neg c4, if_neg c4, u1, lbind_ok]
            obtain ⟨h3, c', cs', p, sm', w1, w2, w3, w4, w5⟩ := ih rs h2 c cs (k + 1) sm R hb2 hc2 hi (hk2 _ _ hn) (fun t ht => hpos t (List.mem_cons_of_mem _ ht)) (hr'.keeps hk2)
            exact ⟨h3, c', cs', p, sm', w1, w2, hk2.trans w3, w4, w5⟩

theorem lExcludeListLoop_sim (list : List Nat) (ls : NetList) : ∀ (fuel : Nat) (h : Heap) (c : List Nat) (cs : NetList) (out : List Nat) (os : NetList) (sm : Nat) (R : Nat → Nat),
    Bal h (c ++ out) R → Cont h c cs → Cont h out os → (∀ s ∈ list, 0 < R s) → Cont h list ls →
    Sim (lExcludeListLoop list fuel h c out sm) (excludeListLoop ls cs os sm fuel) (fun a b => Bal a.1 a.2 R ∧ Keeps h a.1 ∧ Cont a.1 a.2 b) := by
  intro fuel
  induction fuel with
  | zero => intro h c cs out os sm R _ _ _ _ _; exact .fail
  | succ fuel ih =>
    intro h c cs out os sm R hb hc ho hpos hl
    cases c with
    | nil =>
      rw [hc.of_nil]
      exact .ok ⟨hb, .refl _, ho⟩
    | cons x c =>
      obtain ⟨nx, cs, rfl, hx, hc'⟩ := hc.uncons
      rw [lExcludeListLoop, excludeListLoop]
      simp only [listPopFirst]
      have px : 0 < refsOf h x := hb.pos (by simp)
      have hb' : Bal h c (fun j => out.count j + R j + one x j) := fun j => by
        rw [hb, List.cons_append, count_cons_one, List.count_append]; beta_reduce; omega
      obtain ⟨f, c1, c2⟩ := lContains_sim (i := x) (fun s hs => by rw [hb]; have := hpos s hs; omega) hl px hx
      rw [c1, c2, lbind_ok]
      cases f with
      | true =>
        simp only [if_true]
        obtain ⟨h2, u1, u2, u3⟩ := unref_ok px
        rw [u1, lbind_ok]
        have hk := Keeps.same u3
        refine (ih h2 c cs out os sm R (fun j => ?_) (hc'.keeps hk) (ho.keeps hk) hpos (hl.keeps hk)).mono fun a b hab => ⟨hab.1, hk.trans hab.2.1, hab.2.2⟩
        have := u2 j
        have := hb' j
        rw [List.count_append]
        beta_reduce at this
        omega
      | false =>
        simp only [Bool.false_eq_true, if_false]
        obtain ⟨h2, c', cs', p, sm', w1, w2, w3, w4, w5⟩ := lScan_sim x nx (list.drop sm) (ls.drop sm) h c cs sm sm _ hb' hc' (by simp only [one_self]; omega) hx
          (fun s hs => by have := hpos s (List.mem_of_mem_drop hs); (try simp only); omega) (hl.drop sm)
        rw [w1, lbind_ok]
        have stop : ∀ (h' : Heap) (out' : List Nat) (os' : NetList), Keeps h h' → Cont h' c' cs' → Cont h' out' os' →
            Bal h' (c' ++ out') (fun j => R j + one x j) →
            Sim (unref h' x >>= fun h => lExcludeListLoop list fuel h c' out' sm') (excludeListLoop ls cs' os' sm' fuel)
              (fun a b => Bal a.1 a.2 R ∧ Keeps h a.1 ∧ Cont a.1 a.2 b) := by
          intro h' out' os' hk hcc hoo hbb
          obtain ⟨h3, u1, u2, u3⟩ := unref_ok (h := h') (i := x) (by rw [hbb]; beta_reduce; rw [one_self]; omega)
          rw [u1, lbind_ok]
          have hk3 := hk.trans (.same u3)
          refine (ih h3 c' cs' out' os' sm' R (fun j => ?_) (hcc.keeps (.same u3)) (hoo.keeps (.same u3)) hpos (hl.keeps hk3)).mono fun a b hab => ⟨hab.1, hk3.trans hab.2.1, hab.2.2⟩
          have := u2 j
          have := hbb j
          (try simp only at *)
          omega
        have plain : Bal h2 (c' ++ out) (fun j => R j + one x j) := fun j => by
          have := w2 j
          rw [List.count_append]
          (try simp only at *)
          omega
        rcases w5 with ⟨rfl, w5, w6⟩ | ⟨rfl, w5, w6⟩ | ⟨rfl, m, w5, w6⟩
        · rw [w5]
          simp only [if_true]
          obtain ⟨h3, out', os', g1, g2, g3, g4, g5⟩ := lPush_sim (h := h2) (l := out) (ns := os) (R := fun j => c'.count j + R j + one x j) (i := x) (n := nx)
            (fun j => by have := plain j; rw [List.count_append] at this; (try simp only at *); omega) (ho.keeps w3) (by simp only [one_self]; omega) (w3 _ _ hx)
          rw [g1, g2, lbind_ok]
          simp only
          rw [← w6]
          refine stop h3 out' os' (w3.trans (.same g4)) (w4.keeps (.same g4)) g5 fun j => ?_
          have := g3 j
          rw [List.count_append]
          (try simp only at *)
          omega
        · rw [w5]
          simp only [Bool.false_eq_true, if_false]
          rw [← w6]
          exact stop h2 out os w3 w4 (ho.keeps w3) plain
        · rw [w5]
          simp only [Bool.false_eq_true, if_false]
          rw [← w6]
          exact stop h2 out os w3 w4 (ho.keeps w3) plain

theorem excludeListLoop_fails (ls : NetList) {e : Fault} : ∀ (fuel : Nat) (cs os : NetList) (sm : Nat), excludeListLoop ls cs os sm fuel = .error e → e = .diverge := by
  intro fuel
  induction fuel with
  | zero => intro cs os sm h; cases h; rfl
  | succ fuel ih =>
    intro cs os sm h
    rw [excludeListLoop] at h
    cases cs with
    | nil => cases h
    | cons x cs =>
      simp only [listPopFirst] at h
      obtain ⟨k, f, hf, -⟩ := listFind_total ls x
      have hcont : listContains ls x = .ok f := by unfold listContains; rw [hf]; rfl
      rw [hcont] at h
      cases f with
      | true => exact ih _ _ _ h
      | false =>
        simp only at h
        split at h
        · exact ih _ _ _ h
        · exact ih _ _ _ h
        · obtain ⟨os', ho⟩ := listPush_total os x
          rw [ho] at h
          exact ih _ _ _ h

theorem lExcludeList_sim {fuel : Nat} {h : Heap} {i : Nat} {n : Network} {list : List Nat} {ls : NetList} {R : Nat → Nat}
    (hb : Bal h [] R) (hi : 0 < R i) (hn : netAt h i = some n) (hpos : ∀ s ∈ list, 0 < R s) (hl : Cont h list ls) :
    Sim (lExcludeList fuel h i list) (orNull (excludeList fuel n ls)) (ListRel h R) := by
  obtain ⟨⟨h1, c⟩, b, e1, e2, e3, e4⟩ := lCollectExcluded_sim i n list ls h [] [] R hb (.nil h) hi hn hpos hl
  unfold lExcludeList excludeList
  rw [e1, lbind_ok]
  simp only at e3 e4 ⊢
  cases c with
  | none =>
    cases b with
    | some b => exact e4.elim
    | none =>
      unfold orNull at e2
      cases hx : excludeListCollect n [] ls with
      | ok l => rw [hx] at e2; cases e2
      | error e =>
        rw [hx] at e2
        cases e <;> first | (cases e2; done) | exact .ok ⟨e3, e4⟩
  | some c =>
    cases b with
    | none => exact e4.elim
    | some b =>
      unfold orNull at e2
      cases hx : excludeListCollect n [] ls with
      | error e => rw [hx] at e2; cases e <;> cases e2
      | ok l =>
        rw [hx] at e2
        cases e2
        simp only
        obtain ⟨e4, e5⟩ := e4
        rcases lExcludeListLoop_sim list ls fuel h1 c b [] [] 0 R (by simpa using e4) e5 (.nil _) hpos (hl.keeps e3) with ⟨⟨h2, out⟩, os, g1, g2, g3, g4, g5⟩ | ⟨e, g1, g2⟩
        · rw [g1, g2, lbind_ok]
          exact .ok ⟨e3.trans g4, g3, g5⟩
        · rw [g1, g2, lbind_err, excludeListLoop_fails ls _ _ _ _ g2]
          exact .fail

/-! ### enumerations -/

/-- What is returned. -/
def Given (h : Heap) (r : LNext) (x : Next Network) : Prop :=
  match r, x with
  | .item i, .item n => netAt h i = some n
  | .done, .done => True
  | .failed none, .failed => True
  | .failed (some _), .failedHeld => True
  | _, _ => False

theorem lFetch_sim (db : Db) (h : Heap) (a : Addr) (p pos : Nat) :
    (∃ e, lFetchNetwork db h a p pos = .error (.other e) ∧ fetchNetwork db a p pos = .error e) ∨
    (lFetchNetwork db h a p pos = .ok (h, .failed none) ∧ fetchNetwork db a p pos = .ok .soft) ∨
    (∃ h' i, lFetchNetwork db h a p pos = .ok (h', .failed (some i)) ∧ fetchNetwork db a p pos = .ok .hard ∧
      (∀ j, refsOf h' j = refsOf h j + one i j) ∧ Keeps h h') ∨
    (∃ h' i n, lFetchNetwork db h a p pos = .ok (h', .item i) ∧ fetchNetwork db a p pos = .ok (.got n) ∧ netAt h' i = some n ∧
      (∀ j, refsOf h' j = refsOf h j + one i j) ∧ Keeps h h') := by
  unfold lFetchNetwork
  cases hf : fetchNetwork db a p pos with
  | error e => exact .inl ⟨e, rfl, rfl⟩
  | ok x =>
    cases x with
    | soft => exact .inr (.inl ⟨rfl, rfl⟩)
    | got n =>
      obtain ⟨a1, a2, a3⟩ := alloc_spec h n
      exact .inr (.inr (.inr ⟨_, _, n, rfl, rfl, a2, a1, a3⟩))
    | hard =>
      have hn : ∃ n, newNetwork a (if isV4Mapped a then (p + 2 ^ 32 - 96) % 2 ^ 32 else p) = .ok n := by
        unfold fetchNetwork at hf
        split at hf
        · cases hf
        · split at hf
          · cases hf
          · cases hf
          · unfold networkFromRecord at hf
            split at hf
            · simp only at hf
              split at hf
              · cases hf
              · rename_i n hn
                exact ⟨n, hn⟩
            · cases hf
      obtain ⟨n, hn⟩ := hn
      obtain ⟨a1, a2, a3⟩ := alloc_spec h n
      refine .inr (.inr (.inl ⟨(alloc h n).1, (alloc h n).2, ?_, rfl, a1, a3⟩))
      show (match newNetwork a (if isV4Mapped a then (p + 2 ^ 32 - 96) % 2 ^ 32 else p) with
        | .error x => throw (LFault.other x)
        | .ok n => pure ((alloc h n).1, LNext.failed (some (alloc h n).2)) : LRes (Heap × LNext)) = _
      rw [hn]
      rfl

theorem count_none (j : Nat) : (LNext.failed none).given.count j = 0 := rfl
theorem count_done (j : Nat) : LNext.done.given.count j = 0 := rfl
theorem count_some (i j : Nat) : (LNext.failed (some i)).given.count j = one i j := by
  show [i].count j = _
  rw [count_cons_one]; simp
theorem count_item (i j : Nat) : (LNext.item i).given.count j = one i j := by
  show [i].count j = _
  rw [count_cons_one]; simp

/-- After the search on nodes. -/
def DfsRel (h : Heap) (st : NetList) (a : LNext × Heap × NetEnum) (b : Next Network × NetEnum) : Prop :=
  b.2 = { a.2.2 with stack := st } ∧ Given a.2.1 a.1 b.1 ∧ (∀ j, refsOf a.2.1 j = refsOf h j + a.1.given.count j) ∧ Keeps h a.2.1

theorem lDfsLoop_sim (db : Db) (filter : Bool) (st : NetList) : ∀ (fuel : Nat) (h : Heap) (e : NetEnum),
    Sim (lDfsLoop db filter fuel h e) (dfsLoop db filter fuel { e with stack := st }) (DfsRel h st) := by
  intro fuel
  induction fuel with
  | zero => intro h e; exact .fail
  | succ fuel ih =>
    intro h e
    rw [lDfsLoop, dfsLoop]
    simp only
    cases hn : e.nodes with
    | nil => exact .ok ⟨by simp only [hn], trivial, fun j => by rw [count_done]; rfl, .refl _⟩
    | cons nd rest =>
      simp only
      split
      · exact .fail
      split
      · exact ih h { e with nodes := rest }
      split
      · exact .fail
      cases fetchNode db nd.offset with
      | error x => exact .fail
      | ok r =>
        cases r with
        | none => exact .ok ⟨rfl, trivial, fun j => by rw [count_none]; rfl, .refl _⟩
        | some r =>
          simp only
          cases pushNode db (nd :: rest) r.one true (nd.depth + 1) with
          | error x => exact .fail
          | ok nodes =>
            cases nodes with
            | none => exact .ok ⟨rfl, trivial, fun j => by rw [count_none]; rfl, .refl _⟩
            | some nodes =>
              simp only
              cases pushNode db nodes r.zero false (nd.depth + 1) with
              | error x => exact .fail
              | ok nodes =>
                cases nodes with
                | none => exact .ok ⟨rfl, trivial, fun j => by rw [count_none]; rfl, .refl _⟩
                | some nodes =>
                  simp only
                  split
                  · rcases lFetch_sim db h (setBit e.address (nd.depth - 1) nd.i) nd.depth r.net with
                      ⟨x, f1, f2⟩ | ⟨f1, f2⟩ | ⟨h', i, f1, f2, f3, f4⟩ | ⟨h', i, n, f1, f2, f3, f4, f5⟩
                    · rw [f1, f2]; exact .fail
                    · rw [f1, f2]
                      exact .ok ⟨rfl, trivial, fun j => by rw [count_none]; rfl, .refl _⟩
                    · rw [f1, f2]
                      exact .ok ⟨rfl, trivial, fun j => by rw [count_some]; exact f3 j, f4⟩
                    · rw [f1, f2]
                      simp only
                      have pi : 0 < refsOf h' i := by rw [f4, one_self]; omega
                      rw [deref_ok pi f3]
                      simp only
                      split
                      · exact .ok ⟨rfl, f3, fun j => by rw [count_item]; exact f4 j, f5⟩
                      · obtain ⟨h2, u1, u2, u3⟩ := unref_ok pi
                        rw [u1]
                        simp only
                        refine (ih h2 _).mono fun a b hab => ⟨hab.1, hab.2.1, fun j => ?_, (f5.trans (.same u3)).trans hab.2.2.2⟩
                        have := hab.2.2.1 j
                        have := u2 j
                        have := f4 j
                        omega
                  · exact ih h _

theorem lPopMatching_sim (f : Filter) (filter : Bool) : ∀ (l : List Nat) (ns : NetList) (h : Heap) (R : Nat → Nat), Bal h l R → Cont h l ns →
    ∃ h' x l', lPopMatching f filter h l = .ok (h', x, l') ∧ (∀ j, netAt h' j = netAt h j) ∧ Bal h' l' (fun j => R j + x.toList.count j) ∧
      ∃ ns', Cont h' l' ns' ∧ ((x = none ∧ popMatching f filter ns = (none, ns')) ∨ ∃ i n, x = some i ∧ netAt h' i = some n ∧ popMatching f filter ns = (some n, ns')) := by
  intro l
  induction l with
  | nil =>
    intro ns h R hb hc
    rw [hc.of_nil]
    exact ⟨h, none, [], rfl, fun _ => rfl, fun j => by simpa using hb j, [], .nil _, .inl ⟨rfl, rfl⟩⟩
  | cons i l ih =>
    intro ns h R hb hc
    obtain ⟨n, ns, rfl, hn, hc'⟩ := hc.uncons
    rw [lPopMatching, popMatching, deref_ok (hb.pos (by simp)) hn, lbind_ok]
    split
    · refine ⟨h, some i, l, rfl, fun _ => rfl, fun j => ?_, ns, hc', .inr ⟨i, n, rfl, hn, rfl⟩⟩
      rw [hb, count_cons_one]
      show _ = l.count j + (R j + [i].count j)
      rw [count_cons_one]
      simp only [List.count_nil]
      omega
    · obtain ⟨h1, u1, u2, u3⟩ := unref_ok (hb.pos (i := i) (by simp))
      rw [u1, lbind_ok]
      obtain ⟨h2, x, l', w1, w2, w3, ns', w4, w5⟩ := ih ns h1 R (fun j => by have := u2 j; have := hb j; rw [count_cons_one] at this; omega) (hc'.keeps (.same u3))
      exact ⟨h2, x, l', w1, fun j => (w2 j).trans (u3 j), w3, ns', w4, w5⟩

/-- After a call: the enumerator is the same but for the names of objects; the stack holds its elements, and `*network` is held by the caller. -/
def NextRel (h : Heap) (R : Nat → Nat) (a : LNext × Heap × NetEnum × List Nat) (b : Next Network × NetEnum) : Prop :=
  ∃ ns, b.2 = { a.2.2.1 with stack := ns } ∧ Cont a.2.1 a.2.2.2 ns ∧ Given a.2.1 a.1 b.1 ∧ Bal a.2.1 a.2.2.2 (fun j => R j + a.1.given.count j) ∧ Keeps h a.2.1

theorem lNextRaw_sim (db : Db) (filter : Bool) {h : Heap} {e : NetEnum} {st : List Nat} {ns : NetList} {R : Nat → Nat} (hb : Bal h st R) (hc : Cont h st ns) :
    Sim (lNextRaw db filter h e st) (nextNetworkRaw db filter { e with stack := ns }) (NextRel h R) := by
  obtain ⟨h1, x, l', w1, w2, w3, ns', w4, w5⟩ := lPopMatching_sim e.filter filter st ns h R hb hc
  unfold lNextRaw nextNetworkRaw
  rw [w1, lbind_ok]
  simp only
  rcases w5 with ⟨rfl, w5⟩ | ⟨i, n, rfl, w6, w5⟩
  · rw [w5]
    simp only
    rcases lDfsLoop_sim db filter ns' (dfsFuel db e) h1 e with ⟨⟨r, h2, e2⟩, b, d1, d2, d3, d4, d5, d6⟩ | ⟨x, d1, d2⟩
    · rw [d1, lbind_ok]
      show Sim _ (dfsLoop db filter (dfsFuel db e) { e with stack := ns' }) _
      rw [d2]
      refine .ok ⟨ns', d3, w4.keeps d6, d4, fun j => ?_, (Keeps.same w2).trans d6⟩
      have := w3 j
      have := d5 j
      simp only [Option.toList_none, List.count_nil] at *
      omega
    · rw [d1, lbind_err]
      show Sim _ (dfsLoop db filter (dfsFuel db e) { e with stack := ns' }) _
      rw [d2]
      exact .fail
  · rw [w5]
    exact .ok ⟨ns', rfl, w4, w6, w3, .same w2⟩

/-- After collecting subnets. -/
def CollRel (h : Heap) (R : Nat → Nat) (a : Heap × Bool × NetEnum × List Nat × List Nat) (b : Option NetList × NetEnum) : Prop :=
  ∃ ns, b.2 = { a.2.2.1 with stack := ns } ∧ Cont a.1 a.2.2.2.1 ns ∧ Keeps h a.1 ∧ Bal a.1 (a.2.2.2.1 ++ a.2.2.2.2) R ∧
    ((a.2.1 = true ∧ ∃ subs, b.1 = some subs ∧ Cont a.1 a.2.2.2.2 subs) ∨ (a.2.1 = false ∧ b.1 = none ∧ a.2.2.2.2 = []))

theorem lCollectSubnets_sim (db : Db) (i : Nat) (n : Network) : ∀ (fuel : Nat) (h : Heap) (e : NetEnum) (st : List Nat) (ns : NetList) (subs : List Nat) (ss : NetList) (R : Nat → Nat),
    Bal h (st ++ subs) R → Cont h st ns → Cont h subs ss → 0 < R i → netAt h i = some n →
    Sim (lCollectSubnets db i fuel h e st subs) (collectSubnets db n fuel { e with stack := ns } ss) (CollRel h R) := by
  intro fuel
  induction fuel with
  | zero => intro h e st ns subs ss R _ _ _ _ _; exact .fail
  | succ fuel ih =>
    intro h e st ns subs ss R hb hc hs hi hn
    rw [lCollectSubnets, collectSubnets]
    have hb1 : Bal h st (fun j => subs.count j + R j) := fun j => by rw [hb, List.count_append]; beta_reduce; omega
    rcases lNextRaw_sim db false (e := e) hb1 hc with ⟨⟨r, h1, e1, st1⟩, ⟨x, e1'⟩, d1, d2, ns1, d3, d4, d5, d6, d7⟩ | ⟨x, d1, d2⟩
    · rw [d1, d2, lbind_ok]
      simp only at d3 d4 d5 d6 d7 ⊢
      subst d3
      cases r with
      | done =>
        cases x with
        | done =>
          refine .ok ⟨ns1, rfl, d4, d7, fun j => ?_, .inl ⟨rfl, ss, rfl, hs.keeps d7⟩⟩
          have := d6 j
          rw [List.count_append]
          simp only [count_done] at *
          omega
        | item _ => exact d5.elim
        | failed => exact d5.elim
        | failedHeld => exact d5.elim
      | failed left =>
        cases left with
        | none =>
          cases x with
          | failed => exact .fail
          | item _ => exact d5.elim
          | done => exact d5.elim
          | failedHeld => exact d5.elim
        | some k =>
          cases x with
          | failedHeld =>
            simp only
            obtain ⟨h2, u1, u2, u3⟩ := unref_ok (h := h1) (i := k) (by rw [d6]; beta_reduce; rw [count_some, one_self]; omega)
            rw [u1, lbind_ok]
            obtain ⟨h3, v1, v2, v3⟩ := unrefAll_ok subs h2 (fun j => st1.count j + R j) (fun j => by
              have := u2 j
              have := d6 j
              simp only [count_some] at *
              omega)
            rw [v1, lbind_ok]
            have hk := (Keeps.same u3).trans (.same v3)
            refine .ok ⟨ns1, rfl, d4.keeps hk, d7.trans hk, fun j => ?_, .inr ⟨rfl, rfl, rfl⟩⟩
            have := v2 j
            simp only [List.append_nil] at *
            omega
          | failed => exact d5.elim
          | item _ => exact d5.elim
          | done => exact d5.elim
      | item k =>
        cases x with
        | failed => exact d5.elim
        | failedHeld => exact d5.elim
        | done => exact d5.elim
        | item m =>
          have hm : netAt h1 k = some m := d5
          simp only
          have pi : 0 < refsOf h1 i := by rw [d6]; (try simp only); omega
          have pk : 0 < refsOf h1 k := by rw [d6]; beta_reduce; rw [count_item, one_self]; omega
          rw [deref_ok pi (d7 _ _ hn), lbind_ok, deref_ok pk hm, lbind_ok]
          by_cases c : isSubnet n m = true
          · rw [if_pos c, if_pos c]
            obtain ⟨h2, subs2, ss2, g1, g2, g3, g4, g5⟩ := lPush_sim (h := h1) (l := subs) (ns := ss) (R := fun j => st1.count j + R j + one k j) (i := k) (n := m)
              (fun j => by have := d6 j; simp only [count_item] at *; omega) (hs.keeps d7) (by simp only [one_self]; omega) hm
            rw [g1, g2, lbind_ok]
            simp only
            obtain ⟨h3, u1, u2, u3⟩ := unref_ok (h := h2) (i := k) (by rw [g3]; beta_reduce; rw [one_self]; omega)
            rw [u1, lbind_ok]
            have hk := (d7.trans (.same g4)).trans (.same u3)
            have hk' := (Keeps.same g4).trans (.same u3)
            refine (ih h3 e1 st1 ns1 subs2 ss2 R (fun j => ?_) (d4.keeps hk') (g5.keeps (.same u3)) hi (hk _ _ hn)).mono fun a b hab => ?_
            · have := u2 j
              have := g3 j
              rw [List.count_append]
              (try simp only at *)
              omega
            · obtain ⟨ns', q1, q2, q3, q4⟩ := hab
              exact ⟨ns', q1, q2, hk.trans q3, q4⟩
          · rw [if_neg c, if_neg c]
            obtain ⟨h2, st2, ns2, g1, g2, g3, g4, g5⟩ := lPush_sim (h := h1) (l := st1) (ns := ns1) (R := fun j => subs.count j + R j + one k j) (i := k) (n := m)
              (fun j => by have := d6 j; simp only [count_item] at *; omega) d4 (by simp only [one_self]; omega) hm
            rw [g1, g2, lbind_ok]
            simp only
            obtain ⟨h3, u1, u2, u3⟩ := unref_ok (h := h2) (i := k) (by rw [g3]; beta_reduce; rw [one_self]; omega)
            rw [u1, lbind_ok]
            have hk := (d7.trans (.same g4)).trans (.same u3)
            refine .ok ⟨ns2, rfl, g5.keeps (.same u3), hk, fun j => ?_, .inl ⟨rfl, ss, rfl, hs.keeps hk⟩⟩
            have := u2 j
            have := g3 j
            rw [List.count_append]
            (try simp only at *)
            omega
    · rw [d1, d2, lbind_err]
      exact .fail

theorem lNextFlat_sim (db : Db) : ∀ (fuel : Nat) (h : Heap) (e : NetEnum) (st : List Nat) (ns : NetList) (R : Nat → Nat), Bal h st R → Cont h st ns →
    Sim (lNextFlat db fuel h e st) (nextFlat db fuel { e with stack := ns }) (NextRel h R) := by
  intro fuel
  induction fuel with
  | zero => intro h e st ns R _ _; exact .fail
  | succ fuel ih =>
    intro h e st ns R hb hc
    rw [lNextFlat, nextFlat]
    rcases lNextRaw_sim db true (e := e) hb hc with ⟨⟨r, h1, e1, st1⟩, ⟨x, e1'⟩, d1, d2, ns1, d3, d4, d5, d6, d7⟩ | ⟨x, d1, d2⟩
    · rw [d1, d2, lbind_ok]
      simp only at d3 d4 d5 d6 d7 ⊢
      subst d3
      cases r with
      | done =>
        cases x with
        | done => exact .ok ⟨ns1, rfl, d4, d5, d6, d7⟩
        | item _ => exact d5.elim
        | failed => exact d5.elim
        | failedHeld => exact d5.elim
      | failed left =>
        cases x with
        | failed => exact .ok ⟨ns1, rfl, d4, d5, d6, d7⟩
        | failedHeld => exact .ok ⟨ns1, rfl, d4, d5, d6, d7⟩
        | item _ => cases left <;> exact d5.elim
        | done => cases left <;> exact d5.elim
      | item i =>
        cases x with
        | failed => exact d5.elim
        | failedHeld => exact d5.elim
        | done => exact d5.elim
        | item n =>
          have hn : netAt h1 i = some n := d5
          simp only
          have hb1 : Bal h1 (st1 ++ []) (fun j => R j + one i j) := fun j => by
            have := d6 j
            simp only [count_item, List.append_nil] at *
            omega
          have pi : 0 < R i + one i i := by rw [one_self]; omega
          rcases lCollectSubnets_sim db i n (fuel + 1) h1 e1 st1 ns1 [] [] _ hb1 d4 (.nil _) pi hn with ⟨⟨h2, ok, e2, st2, subs⟩, ⟨y, e2'⟩, f1, f2, ns2, f3, f4, f5, f6, f7⟩ | ⟨x, f1, f2⟩
          · rw [f1, f2, lbind_ok]
            simp only at f3 f4 f5 f6 f7 ⊢
            subst f3
            rcases f7 with ⟨rfl, ss, rfl, f8⟩ | ⟨rfl, rfl, rfl⟩
            · simp only [Bool.not_true, Bool.false_eq_true, if_false]
              have hemp : subs.isEmpty = ss.isEmpty := by
                rw [Bool.eq_iff_iff, List.isEmpty_iff_length_eq_zero, List.isEmpty_iff_length_eq_zero, f8.length]
              rw [hemp]
              by_cases c : ss.isEmpty = true
              · rw [if_pos c, if_pos c]
                refine .ok ⟨ns2, rfl, f4, f5 _ _ hn, fun j => ?_, d7.trans f5⟩
                have hs : subs = [] := by rw [c] at hemp; simpa using hemp
                subst hs
                have := f6 j
                simp only [count_item, List.append_nil] at *
                omega
              · rw [if_neg c, if_neg c, f8.length]
                have hbx : Bal h2 [] (fun j => (st2 ++ subs).count j + (R j + one i j)) := fun j => by
                  have := f6 j
                  simp only [List.count_nil] at *
                  omega
                rcases lExcludeList_sim (fuel := 128 * ss.length + 1) (list := subs) (ls := ss) hbx (show 0 < (st2 ++ subs).count i + (R i + one i i) by omega) (f5 _ _ hn)
                  (fun s hs => by
                    have := List.count_pos_iff.mpr hs
                    simp only [List.count_append]
                    omega) f8 with ⟨⟨h3, ex⟩, z, g1, g2, g3, g4⟩ | ⟨x, g1, g2⟩
                · rw [g1, lbind_ok]
                  simp only at g3 g4 ⊢
                  cases ex with
                  | none =>
                    cases z with
                    | some z => exact g4.elim
                    | none =>
                      have hx : ∃ e, excludeList (128 * ss.length + 1) n ss = .error (.err e) := by
                        unfold orNull at g2
                        split at g2
                        · cases g2
                        · rename_i e he; exact ⟨e, he⟩
                        · cases g2
                      obtain ⟨err, hx⟩ := hx
                      rw [hx]
                      simp only
                      obtain ⟨h4, u1, u2, u3⟩ := unrefAll_ok subs h3 (fun j => st2.count j + (R j + one i j)) (fun j => by
                        have := g4 j
                        simp only [List.count_append, List.count_nil] at *
                        omega)
                      rw [u1, lbind_ok]
                      have hk := (d7.trans f5).trans (g3.trans (.same u3))
                      refine .ok ⟨ns2, rfl, f4.keeps (g3.trans (.same u3)), trivial, fun j => ?_, hk⟩
                      have := u2 j
                      simp only [count_some] at *
                      omega
                  | some ex =>
                    cases z with
                    | none => exact g4.elim
                    | some z =>
                      obtain ⟨g4, g5⟩ := g4
                      have hx : excludeList (128 * ss.length + 1) n ss = .ok z := by
                        unfold orNull at g2
                        split at g2
                        · rename_i l hl
                          cases g2
                          exact hl
                        · cases g2
                        · cases g2
                      rw [hx]
                      simp only
                      obtain ⟨h4, st3, ns3, p1, p2, p3, p4, p5⟩ := lMerge_sim subs ss h3 st2 ns2 (fun j => subs.count j + ex.count j + (R j + one i j))
                        (fun j => by
                          have := g4 j
                          simp only [List.count_append] at *
                          omega) (f4.keeps g3) (fun s hs => by have := List.count_pos_iff.mpr hs; (try simp only); omega) (f8.keeps g3)
                      rw [p1, p2, lbind_ok]
                      simp only
                      obtain ⟨h5, st4, ns4, q1, q2, q3, q4, q5⟩ := lMerge_sim ex z h4 st3 ns3 (fun j => subs.count j + ex.count j + (R j + one i j))
                        p3 p5 (fun s hs => by have := List.count_pos_iff.mpr hs; (try simp only); omega) (g5.keeps (.same p4))
                      rw [q1, q2, lbind_ok]
                      simp only
                      obtain ⟨h6, u1, u2, u3⟩ := unrefAll_ok subs h5 (fun j => st4.count j + ex.count j + (R j + one i j)) (fun j => by
                        have := q3 j
                        (try simp only at *)
                        omega)
                      rw [u1, lbind_ok]
                      obtain ⟨h7, v1, v2, v3⟩ := unrefAll_ok ex h6 (fun j => st4.count j + (R j + one i j)) (fun j => by
                        have := u2 j
                        (try simp only at *)
                        omega)
                      rw [v1, lbind_ok]
                      obtain ⟨h8, w1, w2, w3⟩ := unref_ok (h := h7) (i := i) (by rw [v2]; beta_reduce; rw [one_self]; omega)
                      rw [w1, lbind_ok]
                      have hk5 : Keeps h3 h5 := (Keeps.same p4).trans (.same q4)
                      have hk8 : Keeps h5 h8 := ((Keeps.same u3).trans (.same v3)).trans (.same w3)
                      refine (ih h8 e2 st4 ns4 R (fun j => ?_) (q5.keeps hk8)).mono fun a b hab => ?_
                      · have := v2 j
                        have := w2 j
                        (try simp only at *)
                        omega
                      · obtain ⟨ns', r1, r2, r3, r4, r5⟩ := hab
                        exact ⟨ns', r1, r2, r3, r4, ((d7.trans f5).trans (g3.trans hk5)).trans (hk8.trans r5)⟩
                · rw [g1, lbind_err]
                  have hx : excludeList (128 * ss.length + 1) n ss = .error x ∧ ∀ e, x ≠ .err e := by
                    unfold orNull at g2
                    split at g2
                    · cases g2
                    · cases g2
                    · rename_i e he hh
                      cases g2
                      exact ⟨hh, fun e' he' => he e' he'⟩
                  rw [hx.1]
                  cases x with
                  | err e => exact absurd rfl (hx.2 e)
                  | _ => exact .fail
            · simp only [Bool.not_false, if_true]
              refine .ok ⟨ns2, rfl, f4, trivial, fun j => ?_, d7.trans f5⟩
              have := f6 j
              simp only [count_some, List.append_nil] at *
              omega
          · rw [f1, f2, lbind_err]
            exact .fail
    · rw [d1, d2, lbind_err]
      exact .fail

end Loc
