import Verif.Lemmas.Arr
import Verif.Props.NetworkList
import Verif.Lemmas.Writer
/-
C51: the lists never access memory outside of their arrays.
-/
namespace Loc.Props
open Loc Loc.Spec

/-- One call into the array model. -/
def arrStep (a : Arr Network) : ListOp → Res (Arr Network × ListOut)
  | .push n => do return (← arrPush a n, .unit)
  | .pop => do
    let (n, a) ← arrPop a
    return (a, .net n)
  | .popFirst => do
    let (n, a) ← arrPopFirst a
    return (a, .net n)
  | .remove n => do return (← arrRemove a n, .unit)
  | .merge other => do return (← arrMerge a other, .unit)
  | .clear => .ok (arrNew, .unit)
  | .contains n => do return (a, .bool (← arrContains a n))
  | .size => .ok (a, .nat a.size)
  | .get i => do return (a, .net (← arrGet a i))

def arrRun (a : Arr Network) : List ListOp → Res (Arr Network × List ListOut)
  | [] => .ok (a, [])
  | op :: ops => do
    let (a, o) ← arrStep a op
    let (a, os) ← arrRun a ops
    return (a, o :: os)

/-- The number of networks an operation may add. -/
def added : ListOp → Nat
  | .push _ => 1
  | .merge other => other.length
  | _ => 0

theorem arrStep_is {a : Arr Network} {l l' : NetList} {op : ListOp} {o : ListOut} (h : a.Is l) (hl : l.length + added op ≤ 2 ^ 32)
    (hs : listStep l op = .ok (l', o)) : ∃ b, arrStep a op = .ok (b, o) ∧ b.Is l' ∧ l'.length ≤ l.length + added op := by
  cases op with
  | push n =>
    simp only [listStep] at hs
    cases hp : listPush l n with
    | error e => rw [hp] at hs; cases hs
    | ok l1 =>
      rw [hp] at hs
      cases hs
      obtain ⟨b, g1, g2⟩ := arrPush_is h (by simp only [added] at hl; omega) hp
      exact ⟨b, by simp only [arrStep, g1]; rfl, g2, listPush_length hp⟩
  | pop =>
    cases hs
    obtain ⟨b, g1, g2⟩ := arrPop_is h
    refine ⟨b, by simp only [arrStep, g1]; rfl, g2, ?_⟩
    unfold listPop
    split
    · simp
    · simp only [List.length_take]; omega
  | popFirst =>
    cases hs
    obtain ⟨b, g1, g2⟩ := arrPopFirst_is h (by omega)
    refine ⟨b, by simp only [arrStep, g1]; rfl, g2, ?_⟩
    cases l with
    | nil => simp [listPopFirst]
    | cons n l => simp only [listPopFirst, List.length_cons]; omega
  | remove n =>
    simp only [listStep] at hs
    cases hp : listRemove l n with
    | error e => rw [hp] at hs; cases hs
    | ok l1 =>
      rw [hp] at hs
      cases hs
      obtain ⟨b, g1, g2⟩ := arrRemove_is h (by omega) hp
      refine ⟨b, by simp only [arrStep, g1]; rfl, g2, ?_⟩
      unfold listRemove at hp
      cases hf : listFind l n with
      | error e => rw [hf] at hp; cases hp
      | ok r =>
        rw [hf] at hp
        simp only [bind, Except.bind] at hp
        split at hp
        · cases hp; omega
        split at hp
        · cases hp
        · cases hp
          simp only [List.length_append, List.length_take, List.length_drop]
          omega
  | merge other =>
    simp only [listStep] at hs
    cases hp : listMerge l other with
    | error e => rw [hp] at hs; cases hs
    | ok l1 =>
      rw [hp] at hs
      cases hs
      obtain ⟨b, g1, g2⟩ := arrMerge_is other h hl hp
      refine ⟨b, by simp only [arrStep, g1]; rfl, g2, ?_⟩
      clear g1 g2 hl h
      induction other generalizing l with
      | nil => cases hp; simp
      | cons n other ih =>
        rw [listMerge] at hp
        cases hq : listPush l n with
        | error e => rw [hq] at hp; cases hp
        | ok l2 =>
          rw [hq] at hp
          have := ih hp
          have := listPush_length hq
          simp only [added, List.length_cons] at *
          omega
  | clear => cases hs; exact ⟨arrNew, rfl, arrNew_is, by simp⟩
  | contains n =>
    simp only [listStep] at hs
    cases hp : listContains l n with
    | error e => rw [hp] at hs; cases hs
    | ok r =>
      rw [hp] at hs
      cases hs
      exact ⟨a, by simp only [arrStep, arrContains_is h hp]; rfl, h, by omega⟩
  | size => cases hs; exact ⟨a, by simp only [arrStep, h.1], h, by omega⟩
  | get i => cases hs; exact ⟨a, by simp only [arrStep, arrGet_is h]; rfl, h, by omega⟩

/-- C51 for network lists: as long as no more than 2^32 networks are added, no operation reads or writes outside of the
    allocated array or reads a cell that was never written, every operation ends, and the list behaves as a set. -/
theorem network_list_memory (ops : List ListOp) (hops : ∀ op ∈ ops, OpOk op) (hn : (ops.map added).sum ≤ 2 ^ 32) :
    ∃ a outs S, arrRun arrNew ops = .ok (a, outs) ∧ SetRun (fun _ => False) ops outs S := by
  obtain ⟨l, outs, h1, h2, h3⟩ := list_refines_set_empty ops hops
  have key : ∀ (ops : List ListOp) (a : Arr Network) (l l' : NetList) (outs : List ListOut), a.Is l → l.length + (ops.map added).sum ≤ 2 ^ 32 →
      listRun l ops = .ok (l', outs) → ∃ b, arrRun a ops = .ok (b, outs) ∧ b.Is l' := by
    intro ops
    induction ops with
    | nil => intro a l l' outs h _ hr; cases hr; exact ⟨a, rfl, h⟩
    | cons op ops ih =>
      intro a l l' outs h hl hr
      rw [listRun] at hr
      simp only [List.map_cons, List.sum_cons] at hl
      cases hs : listStep l op with
      | error e => rw [hs] at hr; cases hr
      | ok r =>
        obtain ⟨l1, o⟩ := r
        rw [hs] at hr
        simp only [bind, Except.bind] at hr
        cases ht : listRun l1 ops with
        | error e => rw [ht] at hr; cases hr
        | ok r =>
          obtain ⟨l2, os⟩ := r
          rw [ht] at hr
          cases hr
          obtain ⟨b, g1, g2, g3⟩ := arrStep_is h (by omega) hs
          obtain ⟨c, i1, i2⟩ := ih b l1 _ _ g2 (by omega) ht
          refine ⟨c, ?_, i2⟩
          rw [arrRun, g1]
          simp only [bind, Except.bind, i1]
          rfl
  obtain ⟨a, g1, -⟩ := key ops arrNew [] l outs arrNew_is (by simpa using hn) h1
  exact ⟨a, outs, _, g1, h3⟩

set_option maxRecDepth 100000 in
example : (∀ op ∈ [ListOp.push net10_1_16, .push net10_8, .popFirst, .get 0, .get 1], OpOk op) ∧
    ([ListOp.push net10_1_16, .push net10_8, .popFirst, .get 0, .get 1].map added).sum ≤ 2 ^ 32 ∧
    ∃ a, arrRun arrNew [.push net10_1_16, .push net10_8, .popFirst, .get 0, .get 1] =
      .ok (a, [.unit, .unit, .net (some net10_8), .net (some net10_1_16), .net none]) :=
  ⟨by simp [OpOk], by decide, _, rfl⟩

/-- A sequence of appends to a list of ASes or countries. -/
def arrAppends {α : Type} (same : α → α → Bool) : Arr α → List α → Res (Arr α)
  | a, [] => .ok a
  | a, x :: xs =>
    match arrAppend same a x with
    | .error e => .error e
    | .ok a => arrAppends same a xs

theorem arrAppends_is {α : Type} (same : α → α → Bool) (xs : List α) : ∀ (a : Arr α) (l : List α), a.Is l → l.length + xs.length ≤ 2 ^ 32 →
    ∃ b, arrAppends same a xs = .ok b ∧ b.Is (xs.foldl (fun l x => if l.any (same x) then l else l ++ [x]) l) := by
  induction xs with
  | nil => intro a l h _; exact ⟨a, rfl, h⟩
  | cons x xs ih =>
    intro a l h hl
    simp only [List.length_cons] at hl
    obtain ⟨b, g1, g2⟩ := arrAppend_is h (by omega) same x
    rw [arrAppends, g1, List.foldl_cons]
    refine ih b _ g2 ?_
    split
    · omega
    · simp only [List.length_append, List.length_singleton]; omega

/-- What a list without duplicates keeps of a sequence of objects: for each key the first object. -/
structure Firsts {α β : Type} [DecidableEq β] (key : α → β) (xs l : List α) : Prop where
  order : l.Sublist xs
  distinct : (l.map key).Nodup
  first : ∀ k, l.find? (fun x => key x = k) = xs.find? (fun x => key x = k)

theorem foldl_firsts {α β : Type} [DecidableEq β] (key : α → β) (same : α → α → Bool) (hsame : ∀ x y, same x y = true ↔ key x = key y) (xs : List α) :
    ∀ (l pre : List α), Firsts key pre l → Firsts key (pre ++ xs) (xs.foldl (fun l x => if l.any (same x) then l else l ++ [x]) l) := by
  induction xs with
  | nil => intro l pre h; simpa using h
  | cons x xs ih =>
    intro l pre h
    rw [List.foldl_cons, show pre ++ x :: xs = (pre ++ [x]) ++ xs by simp]
    apply ih
    split
    · rename_i hany
      obtain ⟨y, hy, hxy⟩ := List.any_eq_true.mp hany
      rw [hsame] at hxy
      refine ⟨h.order.trans (List.sublist_append_left _ _), h.distinct, fun k => ?_⟩
      rw [List.find?_append, ← h.first]
      by_cases hk : key x = k
      · cases hf : l.find? (fun x => key x = k) with
        | some z => rfl
        | none =>
          have := List.find?_eq_none.mp hf y hy
          simp [← hxy, hk] at this
      · simp [hk]
    · rename_i hany
      refine ⟨List.Sublist.append h.order (List.Sublist.refl _), ?_, fun k => ?_⟩
      · rw [List.map_append, List.nodup_append]
        refine ⟨h.distinct, by simp, ?_⟩
        intro a ha b hb
        obtain ⟨y, hy, rfl⟩ := List.mem_map.mp ha
        simp only [List.map_cons, List.map_nil, List.mem_singleton] at hb
        subst hb
        intro heq
        exact hany (List.any_eq_true.mpr ⟨y, hy, (hsame x y).mpr heq.symm⟩)
      · rw [List.find?_append, List.find?_append, h.first]

/-- C51 for lists of ASes: as long as no more than 2^32 objects are appended, all accesses are inside of the array; the list
    then holds for each number the first AS that was appended, in the order of the appends. -/
theorem as_list_memory (xs : List AS) (hn : xs.length ≤ 2 ^ 32) :
    ∃ a l, arrAppends (fun x y => y.number == x.number) arrNew xs = .ok a ∧ a.size = l.length ∧ (∀ i, arrGet a i = .ok l[i]?) ∧
      Firsts (·.number) xs l := by
  obtain ⟨a, g1, g2⟩ := arrAppends_is (fun (x y : AS) => y.number == x.number) xs arrNew [] arrNew_is (by rw [List.length_nil, Nat.zero_add]; exact hn)
  refine ⟨a, _, g1, g2.1, fun i => ?_, ?_⟩
  · rw [arrGet_is g2]
    split
    · rename_i h
      rw [List.getElem?_eq_none h]
    · rfl
  · have := foldl_firsts (·.number) (fun (x y : AS) => y.number == x.number) (by intro x y; rw [beq_iff_eq]; exact eq_comm) xs [] [] ⟨by simp, by simp, by simp⟩
    simpa using this

/-- C51 for lists of countries. -/
theorem country_list_memory (xs : List Country) (hn : xs.length ≤ 2 ^ 32) :
    ∃ a l, arrAppends (fun x y => countryCmp x y == 0) arrNew xs = .ok a ∧ a.size = l.length ∧ (∀ i, arrGet a i = .ok l[i]?) ∧
      Firsts (fun c => (c.c0, c.c1)) xs l := by
  obtain ⟨a, g1, g2⟩ := arrAppends_is (fun (x y : Country) => countryCmp x y == 0) xs arrNew [] arrNew_is (by rw [List.length_nil, Nat.zero_add]; exact hn)
  refine ⟨a, _, g1, g2.1, fun i => ?_, ?_⟩
  · rw [arrGet_is g2]
    split
    · rename_i h
      rw [List.getElem?_eq_none h]
    · rfl
  · have := foldl_firsts (fun (c : Country) => (c.c0, c.c1)) (fun (x y : Country) => countryCmp x y == 0)
      (by intro x y; rw [beq_iff_eq, countryCmp, ccCmp_zero]; simp) xs [] [] ⟨by simp, by simp, by simp⟩
    simpa using this

set_option maxRecDepth 100000 in
example : ([⟨1, none⟩, ⟨2, none⟩, ⟨1, some [65]⟩] : List AS).length ≤ 2 ^ 32 ∧
    ∃ a, arrAppends (fun (x y : AS) => y.number == x.number) arrNew [⟨1, none⟩, ⟨2, none⟩, ⟨1, some [65]⟩] = .ok a ∧
      arrGet a 1 = .ok (some ⟨2, none⟩) ∧ arrGet a 2 = .ok none := ⟨by decide, _, rfl, rfl, rfl⟩

/-- These are the appends of the writer model. -/
theorem append_list_model (l : List AS) (x : AS) (m : List Country) (c : Country) :
    asListAppend l x = (if l.any (fun a => a.number == x.number) then l else l ++ [x]) ∧
    countryListAppend m c = (if m.any (fun d => countryCmp c d == 0) then m else m ++ [c]) := ⟨rfl, rfl⟩

/-- The limit is real: with 2^32 + 1 elements `pop_first` does not end. -/
theorem pop_first_diverges (a : Arr Network) (l : NetList) (h : a.Is l) (hl : l.length > 2 ^ 32) : arrPopFirst a = .error .diverge := by
  have hs := h.1
  unfold arrPopFirst
  rw [if_neg (by omega), arrRead_is h (by omega)]
  simp only [shiftDownFrom]
  rw [if_pos (by omega)]

example (n : Network) : (Arr.mk (List.replicate (2 ^ 32 + 1) (some n)) (2 ^ 32 + 1)).Is (List.replicate (2 ^ 32 + 1) n) :=
  ⟨by rw [List.length_replicate], [], by rw [List.map_replicate, List.append_nil]⟩

end Loc.Props
