import Verif.Props.Safe
import Verif.Props.Address
/-
C46, for lookups: exactly when a lookup leaves the 16 octets of the address.
-/
namespace Loc.Props
open Loc Loc.Spec

/-- `r` more steps along the address from node `i`, which is `k` steps below the first. -/
def Goes (f : Bytes) (a : Addr) : Nat → Nat → Nat → Prop
  | 0, _, i => NodeInFile f i
  | r + 1, k, i => NodeInFile f i ∧ 0 < nodeWord f i (if bit a k then 1 else 0) ∧ nodeWord f i (if bit a k then 1 else 0) < word f 48 / 12 ∧
      Goes f a r (k + 1) (nodeWord f i (if bit a k then 1 else 0))

theorem along_in {f : Bytes} {a : Addr} {k i : Nat} (h : Along f a k i) : NodeInFile f i := by
  cases h with
  | root h => exact h
  | step _ _ _ _ h => exact h

theorem goes_along {f : Bytes} {a : Addr} : ∀ (r k i : Nat), Along f a k i → Goes f a r k i → ∃ j, Along f a (k + r) j
  | 0, k, i, h, _ => ⟨i, h⟩
  | r + 1, k, i, h, hg => by
    obtain ⟨-, g1, g2, g3⟩ := hg
    have hin : NodeInFile f (nodeWord f i (if bit a k then 1 else 0)) := by
      cases r with
      | zero => exact g3
      | succ r => exact g3.1
    obtain ⟨j, hj⟩ := goes_along r (k + 1) _ (.step h rfl g1 g2 hin) g3
    exact ⟨j, by rw [show k + (r + 1) = k + 1 + r by omega]; exact hj⟩

theorem along_goes {f : Bytes} {a : Addr} {k i : Nat} (h : Along f a k i) : ∀ r, Goes f a r k i → Goes f a (r + k) 0 0 := by
  induction h with
  | root h => exact fun r hr => hr
  | @step k i j h hj h1 h2 h3 ih =>
    intro r hr
    subst hj
    have := ih (r + 1) ⟨along_in h, h1, h2, hr⟩
    rw [show r + (k + 1) = r + 1 + k by omega]
    exact this

theorem long_iff {f : Bytes} {a : Addr} (r : Nat) : (∃ j, Along f a r j) ↔ Goes f a r 0 0 := by
  constructor
  · rintro ⟨j, h⟩
    have := along_goes h 0 (along_in h)
    rwa [Nat.zero_add] at this
  · intro h
    have hin : NodeInFile f 0 := by
      cases r with
      | zero => exact h
      | succ r => exact h.1
    obtain ⟨j, hj⟩ := goes_along r 0 0 (.root hin) h
    exact ⟨j, by rwa [Nat.zero_add] at hj⟩

theorem fetchNode_cases {f : Bytes} (hf : f.length < 2 ^ 64) {db : Db} (h : dbOpen f = .ok db) (i : Nat) :
    (NodeInFile f i ∧ ∃ r, fetchNode db i = .ok (some r)) ∨ (¬ NodeInFile f i ∧ fetchNode db i = .ok none) := by
  obtain ⟨h1, h2, -, -, h5, -⟩ := open_ok h
  have hm : (f.length + 2 ^ 64 - nodeSize) % 2 ^ 64 = f.length - 12 := by
    show (f.length + 2 ^ 64 - 12) % 2 ^ 64 = f.length - 12
    rw [show f.length + 2 ^ 64 - 12 = (f.length - 12) + 2 ^ 64 by omega, Nat.add_mod_right, Nat.mod_eq_of_lt (by omega)]
  unfold fetchNode dbObject NodeInFile
  rw [h2, h5]
  unfold checkBoundaries
  rw [hm]
  have hn : nodeSize = 12 := rfl
  rw [hn]
  by_cases hi : word f 44 + 12 * i + 12 ≤ f.length
  · left
    refine ⟨hi, ?_⟩
    rw [if_neg (by simp; omega)]
    unfold rd
    rw [if_pos (by omega)]
    exact ⟨_, rfl⟩
  · right
    refine ⟨hi, ?_⟩
    rw [if_pos (by simp; omega)]

theorem lookupLoop_outside {f : Bytes} (hf : f.length < 2 ^ 64) {db : Db} (h : dbOpen f = .ok db) (a : Addr) :
    ∀ (rem : Nat) (na : Addr) (i : Nat), rem ≤ 128 → (lookupLoop db a rem na i = .error .oob ↔ Goes f a rem (128 - rem) i) := by
  have hno : ∀ na level node, lookupHere db a na level node ≠ .error .oob := fun na level node he => by
    cases (lookupHere_reads db a na level node _ he).1
  have hcnt : db.nodeCount = word f 48 / 12 := by
    obtain ⟨-, -, -, -, -, h6, -⟩ := open_ok h
    exact h6
  intro rem
  induction rem with
  | zero =>
    intro na i _
    unfold lookupLoop
    rcases fetchNode_cases hf h i with ⟨h1, r, h2⟩ | ⟨h1, h2⟩
    · rw [h2]
      exact ⟨fun _ => h1, fun _ => rfl⟩
    · rw [h2]
      exact ⟨(fun h => by cases h), fun hg => absurd hg h1⟩
  | succ rem ih =>
    intro na i hr
    unfold lookupLoop
    rcases fetchNode_cases hf h i with ⟨h1, r, h2⟩ | ⟨h1, h2⟩
    · rw [h2]
      simp only
      obtain ⟨w1, w2⟩ := fetchNode_word h h2
      have hnext : (if getBit a (128 - (rem + 1)) = true then r.one else r.zero) = nodeWord f i (if bit a (128 - (rem + 1)) then 1 else 0) := by
        rw [getBit_eq_bit a _ (by omega), w1, w2]
        by_cases hb : bit a (128 - (rem + 1)) = true
        · rw [if_pos hb, if_pos hb]
        · rw [if_neg hb, if_neg hb]
      rw [hnext]
      have hhere : ∀ na' : Addr, (match lookupHere db a na' (128 - (rem + 1)) r with | .error e => .error e | .ok v => .ok (v, na') : Res (LookupOut × Addr)) ≠ .error .oob := by
        intro na' he
        cases hh : lookupHere db a na' (128 - (rem + 1)) r with
        | error z =>
          rw [hh] at he
          cases he
          exact hno _ _ _ hh
        | ok v =>
          rw [hh] at he
          cases he
      show _ ↔ NodeInFile f i ∧ _
      by_cases g1 : nodeWord f i (if bit a (128 - (rem + 1)) then 1 else 0) > 0
      · rw [if_pos g1]
        by_cases g2 : nodeWord f i (if bit a (128 - (rem + 1)) then 1 else 0) ≥ db.nodeCount
        · rw [if_pos g2]
          refine ⟨(fun h => by cases h), fun hg => ?_⟩
          have := hg.2.2.1
          omega
        · rw [if_neg g2]
          have hi := ih (setBit na (128 - (rem + 1)) (getBit a (128 - (rem + 1)))) (nodeWord f i (if bit a (128 - (rem + 1)) then 1 else 0)) (by omega)
          rw [show 128 - rem = 128 - (rem + 1) + 1 by omega] at hi
          cases hl : lookupLoop db a rem (setBit na (128 - (rem + 1)) (getBit a (128 - (rem + 1)))) (nodeWord f i (if bit a (128 - (rem + 1)) then 1 else 0)) with
          | error z =>
            rw [hl] at hi
            constructor
            · intro he
              cases he
              exact ⟨h1, g1, by omega, hi.mp rfl⟩
            · intro hg
              have := hi.mpr hg.2.2.2
              cases this
              rfl
          | ok v =>
            rw [hl] at hi
            have hng : ¬ Goes f a rem (128 - (rem + 1) + 1) (nodeWord f i (if bit a (128 - (rem + 1)) then 1 else 0)) := fun hg => by
              have := hi.mpr hg
              cases this
            obtain ⟨v, na'⟩ := v
            cases v with
            | ok n => exact ⟨(fun h => by cases h), fun hg => absurd hg.2.2.2 hng⟩
            | hard => exact ⟨(fun h => by cases h), fun hg => absurd hg.2.2.2 hng⟩
            | soft => exact ⟨fun h => absurd h (hhere _), fun hg => absurd hg.2.2.2 hng⟩
      · rw [if_neg g1]
        exact ⟨fun h => absurd h (hhere _), fun hg => absurd hg.2.1 g1⟩
    · rw [h2]
      exact ⟨(fun h => by cases h), fun hg => absurd hg.1 h1⟩

/-- In any file, with cycles or without: looking up an address leaves its 16 octets exactly if there is a node 128 steps along
    its bits below the first. -/
theorem lookup_outside_iff {f : Bytes} (hf : f.length < 2 ^ 64) {db : Db} (h : dbOpen f = .ok db) (a : Addr) :
    lookup db a = .error .oob ↔ ∃ i, Along f a 128 i := by
  have key := lookupLoop_outside hf h a 128 (Vector.replicate 16 0) 0 (Nat.le_refl _)
  rw [long_iff, ← key]
  unfold lookup
  cases hl : lookupLoop db a 128 (Vector.replicate 16 0) 0 with
  | error z => exact ⟨(fun h => by cases h; rfl), (fun h => by cases h; rfl)⟩
  | ok v => exact ⟨(fun h => by cases h), (fun h => by cases h)⟩

/-- A file with one node that leads to itself on zero bits only: the address `::` is followed 128 times and out of its octets,
    other addresses are not. -/
def selfFile : Bytes :=
  [76, 79, 67, 68, 66, 88, 88, 1] ++ List.replicate 8 0 ++ [0, 0, 0, 0, 0, 0, 0, 72, 24, 0, 0, 0, 0].flatMap be32 ++ List.replicate 4 0 ++
  ([1, 0, 0xffffffff, 1, 0, 0xffffffff].flatMap be32) ++ List.replicate 4104 0

set_option maxRecDepth 100000 in
example : (match dbOpen selfFile with
    | .ok db => isOob (lookup db (Vector.replicate 16 0)) && !isOob (lookup db ((Vector.replicate 16 0).set 15 1))
    | .error _ => false) = true := by
  decide +kernel

end Loc.Props
