import Verif.Lemmas.Compare
/-
C74: objects of the bindings compare like what they stand for.
-/
namespace Loc.Props
open Loc Loc.Spec

/-- **C74 (Python, equality).**  Two objects are equal exactly if they stand for the same block of addresses, the same number,
    or the same code; objects of different types are not equal. -/
theorem python_eq (x y : PyRef) (hx : Made x) (hy : Made y) (hid : x.id = y.id → x = y) :
    ∃ b, pyCompare x y .eq = .ok (.ret b) ∧ (b = true ↔ meaning x = meaning y) := pyCompare_eq hx hy hid

/-- **C74 (Python, order).**  `<` and `>` follow the natural order among objects of the same type. -/
theorem python_order (x y : PyRef) (hx : Made x) (hy : Made y) (ha : Alike x y) :
    ∃ b c, pyCompare x y .lt = .ok (.ret b) ∧ (b = true ↔ Earlier (meaning x) (meaning y)) ∧
      pyCompare x y .gt = .ok (.ret c) ∧ (c = true ↔ Earlier (meaning y) (meaning x)) := by
  obtain ⟨b, hb, hb'⟩ := pyCompare_lt hx hy ha
  obtain ⟨c, hc, hc'⟩ := pyCompare_lt hy hx (alike_symm ha)
  refine ⟨b, c, hb, hb', ?_, hc'⟩
  obtain ⟨r, h1, h2, _⟩ := richcompare_alike hx hy ha
  unfold pyCompare at hc ⊢
  simp only [h1, h2, cmpResult, CmpOp.swap] at hc ⊢
  exact hc

/-- The natural order is a strict order in which any two objects of the same type can be compared. -/
theorem python_order_total (x y z : PyRef) (hx : Made x) (hy : Made y) (ha : Alike x y) :
    ¬ Earlier (meaning x) (meaning x) ∧
      (Earlier (meaning x) (meaning y) → Earlier (meaning y) (meaning z) → Earlier (meaning x) (meaning z)) ∧
      (Earlier (meaning x) (meaning y) ∨ meaning x = meaning y ∨ Earlier (meaning y) (meaning x)) := by
  refine ⟨earlier_irrefl _, earlier_trans, ?_⟩
  obtain ⟨r, _, _, h⟩ := richcompare_alike hx hy ha
  rcases h with ⟨_, o⟩ | ⟨_, o⟩ | ⟨_, o⟩
  · exact .inl o
  · exact .inr (.inr o)
  · exact .inr (.inl o)

/-- **C74 (Python, sorting).**  `sorted` returns the same objects in natural order, and equal ones in the order in which they
    were given. -/
theorem python_sorted (l : List PyRef) (hm : ∀ x ∈ l, Made x) (ha : ∀ x ∈ l, ∀ y ∈ l, Alike x y) :
    ∃ l', pySorted l = .ok (.ret l') ∧ l'.Perm l ∧ l'.Pairwise (fun a b => ¬ Earlier (meaning b) (meaning a)) ∧
      ∀ m, l'.filter (fun x => meaning x = m) = l.filter (fun x => meaning x = m) := by
  cases l with
  | nil => exact ⟨[], rfl, .refl _, .nil, fun _ => rfl⟩
  | cons k t =>
    obtain ⟨l', h1, h2, h3, h4⟩ := pySortInto_spec (k := k) (k :: t) [] (fun y hy => by cases hy)
      (fun y hy => ⟨hm y hy, ha k (.head _) y hy⟩) .nil
    exact ⟨l', h1, h3.symm, h2, h4⟩

/-- **C74 (Python, hashes).**  Equal objects have equal hashes (or both have none). -/
theorem python_hash (h : Hashing) (x y : PyRef) (hx : Made x) (hy : Made y) (hid : x.id = y.id → x = y)
    (he : pyCompare x y .eq = .ok (.ret true)) : pyHash h x = pyHash h y := by
  obtain ⟨b, hb, hi⟩ := pyCompare_eq hx hy hid
  rw [he] at hb
  injection hb with hb
  injection hb with hb
  exact pyHash_congr h hx hy (hi.1 hb.symm)

/-- **C74 (Python, sets).**  A set made of ASes, countries and other objects has, for each thing one of them stands for, exactly
    one object.  Missing: networks, and AS 4294967295 on machines with 32 bits, see `python_hash_violated`. -/
theorem python_set_partial (h : Hashing) (hb : 33 ≤ h.bits) (l : List PyRef) (hm : ∀ x ∈ l, Made x)
    (hn : ∀ x ∈ l, ∀ n, x.thing ≠ .network n) (hid : ∀ x ∈ l, ∀ y ∈ l, x.id = y.id → x = y) :
    ∃ s, pySet h [] l = .ok (.ret s) ∧ (∀ x ∈ s, x ∈ l) ∧ (∀ x ∈ l, ∃ y ∈ s, meaning y = meaning x) ∧
      s.Pairwise (fun a b => meaning a ≠ meaning b) := by
  obtain ⟨s, h1, h2, h3, h4⟩ := pySet_spec hb l [] ⟨fun x hx => ⟨hm x hx, hn x hx⟩, hid⟩ .nil
  exact ⟨s, h1, h3, h4, h2⟩

/-- `!=` tells whether the objects are different objects, not whether they are unequal. -/
theorem python_ne (x y : PyRef) (hx : Made x) (hy : Made y) : pyCompare x y .ne = .ok (.ret (x.id != y.id)) := by
  unfold pyCompare
  by_cases ha : Alike x y
  · obtain ⟨r, h1, h2, _⟩ := richcompare_alike hx hy ha
    rw [h1, h2]
    rfl
  · rw [richcompare_unlike ha, richcompare_unlike (fun h => ha (alike_symm h))]

/-- **Violation.**  `AS(1) == AS(1)` and `AS(1) != AS(1)` are both true. -/
theorem python_ne_violated : ∃ x y, Made x ∧ Made y ∧ pyCompare x y .eq = .ok (.ret true) ∧ pyCompare x y .ne = .ok (.ret true) :=
  ⟨⟨0, .as (some ⟨1, none⟩)⟩, ⟨1, .as (some ⟨1, none⟩)⟩, by unfold Made; decide, by unfold Made; decide, by decide, by decide⟩

/-- **Violation.**  `<=` and `>=` always raise a `TypeError`, though there is an order. -/
theorem python_le_violated (x y : PyRef) (hx : Made x) (hy : Made y) :
    pyCompare x y .le = .ok (.exc .type) ∧ pyCompare x y .ge = .ok (.exc .type) := by
  unfold pyCompare
  by_cases ha : Alike x y
  · obtain ⟨r, h1, h2, _⟩ := richcompare_alike hx hy ha
    rw [h1, h1, h2, h2]
    exact ⟨rfl, rfl⟩
  · have ha' : ¬ Alike y x := fun h => ha (alike_symm h)
    rw [richcompare_unlike ha, richcompare_unlike ha, richcompare_unlike ha', richcompare_unlike ha']
    exact ⟨rfl, rfl⟩

/-- **Violation.**  Networks cannot be put into sets, nor be keys of dictionaries; on machines with 32 bits AS 4294967295
    cannot, either. -/
theorem python_hash_violated (h : Hashing) (i : Nat) (n : Network) (s : List PyRef) :
    pySetAdd h s ⟨i, .network (some n)⟩ = .ok (.exc .type) ∧
      (h.bits = 32 → pySetAdd h s ⟨i, .as (some ⟨4294967295, none⟩)⟩ = .ok (.exc .system)) := by
  refine ⟨rfl, fun hb => ?_⟩
  unfold pySetAdd pyHash
  rw [hb]
  rfl

/-- **Violation.**  Objects whose `__init__` was not called, for example those of a subclass that forgot to, make comparisons
    follow NULL. -/
theorem python_unmade_violated (h : Hashing) (i j : Nat) (n : Option Network) (a : Option AS) (c : Option Country) (op : CmpOp) :
    pyCompare ⟨i, .network none⟩ ⟨j, .network n⟩ op = .error .oob ∧ pyCompare ⟨i, .as none⟩ ⟨j, .as a⟩ op = .error .oob ∧
      pyCompare ⟨i, .country none⟩ ⟨j, .country c⟩ op = .error .oob ∧ pyHash h ⟨i, .as none⟩ = .error .oob ∧
      pyHash h ⟨i, .country none⟩ = .error .oob := ⟨rfl, rfl, rfl, rfl, rfl⟩

/-- **C74 (creating ASes).**  `AS(n)` is the AS with the number `n` - up to 2147483647. -/
theorem python_as_partial (bits : Nat) (hb : 32 ≤ bits) (n : Nat) (hn : n < 2 ^ 31) :
    ∃ a, pyAs n = .ret a ∧ a.number.toNat = n ∧ pyAsNumber bits a.number = n := by
  have h1 : ¬ ((n : Int) < -2 ^ 31 ∨ 2 ^ 31 ≤ (n : Int)) := by omega
  have h2 : (BitVec.ofInt 32 n).toNat = n := by
    rw [BitVec.ofInt_natCast, BitVec.toNat_ofNat]
    exact Nat.mod_eq_of_lt (by omega)
  refine ⟨⟨BitVec.ofInt 32 n, none⟩, by unfold pyAs argInt; rw [if_neg h1], h2, ?_⟩
  unfold pyAsNumber
  rw [h2, if_pos (Nat.lt_of_lt_of_le hn (Nat.pow_le_pow_right (by omega) (by omega)))]

/-- **Violation.**  The other half of the AS numbers is refused, and negative numbers are taken for them. -/
theorem python_as_violated :
    (∀ n : Nat, 2 ^ 31 ≤ n → pyAs n = .exc .overflow) ∧ ∃ a, pyAs (-1) = .ret a ∧ a.number.toNat = 4294967295 := by
  refine ⟨fun n hn => ?_, ⟨4294967295, none⟩, by decide, by decide⟩
  unfold pyAs argInt
  rw [if_pos (.inr (by omega))]

/-- **C74 (reading AS numbers).**  The number of every AS, and of the AS of every network, is read as it is if `long` has
    more than 32 bits. -/
theorem python_as_number_partial (bits : Nat) (hb : 33 ≤ bits) (number : BitVec 32) :
    pyAsNumber bits number = number.toNat := by
  unfold pyAsNumber
  rw [if_pos (Nat.lt_of_lt_of_le number.isLt (Nat.pow_le_pow_right (by omega) (by omega)))]

/-- **Violation.**  With a `long` of 32 bits the larger half of them becomes negative. -/
theorem python_as_number_violated (number : BitVec 32) (h : 2 ^ 31 ≤ number.toNat) : pyAsNumber 32 number < 0 := by
  have := number.isLt
  unfold pyAsNumber
  rw [if_neg (by omega)]
  omega

example : pyAsNumber 64 4294967295 = 4294967295 ∧ pyAsNumber 32 4294967295 = -1 := by decide

/-- **C74 (Lua).**  Countries are equal exactly if they have the same code.  Missing: everything else. -/
theorem lua_eq_partial (strict : Bool) (i j : Nat) (c d : Country) (hid : i = j → c = d) :
    ∃ b, luaEq strict ⟨i, .country (some c)⟩ ⟨j, .country (some d)⟩ = .ok (.answer b) ∧
      (b = true ↔ c.c0 = d.c0 ∧ c.c1 = d.c1) := by
  unfold luaEq
  by_cases h : i = j
  · have := hid h
    subst this
    rw [if_pos h]
    exact ⟨true, rfl, fun _ => ⟨rfl, rfl⟩, fun _ => rfl⟩
  · rw [if_neg h]
    refine ⟨_, rfl, ?_⟩
    rw [beq_iff_eq]
    have hs := countryCmp_spec c d
    constructor
    · intro h0
      rw [h0] at hs
      rcases hs with ⟨e, _⟩ | ⟨e, _⟩ | ⟨_, o⟩
      · cases e
      · cases e
      · exact ⟨BitVec.eq_of_toNat_eq o.1, BitVec.eq_of_toNat_eq o.2⟩
    · intro ⟨e0, e1⟩
      rw [e0, e1] at hs
      rcases hs with ⟨_, o⟩ | ⟨_, o⟩ | ⟨e, _⟩
      · omega
      · omega
      · exact e

/-- **Violation.**  Two objects for the same AS, or for the same network, are never equal. -/
theorem lua_eq_violated (strict : Bool) (i j : Nat) (hij : i ≠ j) (a : AS) (n : Network) :
    luaEq strict ⟨i, .as (some a)⟩ ⟨j, .as (some a)⟩ = .ok (.answer false) ∧
      luaEq strict ⟨i, .network (some n)⟩ ⟨j, .network (some n)⟩ = .ok (.answer false) := by
  exact ⟨(if_neg hij).trans rfl, (if_neg hij).trans rfl⟩

/-- **Violation.**  With Lua 5.3 and later, comparing a country with an AS or a network raises an error. -/
theorem lua_eq_violated_types (i j : Nat) (hij : i ≠ j) (c : Option Country) (a : Option AS) (n : Option Network) :
    luaEq false ⟨i, .country c⟩ ⟨j, .as a⟩ = .ok .raised ∧ luaEq false ⟨i, .network n⟩ ⟨j, .country c⟩ = .ok .raised := by
  exact ⟨(if_neg hij).trans rfl, (if_neg hij).trans rfl⟩

/-! ### Examples -/

/-- DE, AT and DE again -/
def someCountries : List PyRef :=
  [⟨0, .country (some ⟨68, 69, 0, 0, none⟩)⟩, ⟨1, .country (some ⟨65, 84, 0, 0, none⟩)⟩, ⟨2, .country (some ⟨68, 69, 0, 0, none⟩)⟩]

example : ∀ x ∈ someCountries, Made x := by unfold Made; decide

example : ∀ x ∈ someCountries, ∀ y ∈ someCountries, Alike x y := by
  intro x hx y hy
  simp only [someCountries, List.mem_cons, List.not_mem_nil, or_false] at hx hy
  rcases hx with rfl | rfl | rfl <;> rcases hy with rfl | rfl | rfl <;> trivial

example : ∀ x ∈ someCountries, ∀ y ∈ someCountries, x.id = y.id → x = y := by decide

example : (pySorted someCountries).map (fun r => match r with | .ret l => l.map (·.id) | .exc _ => []) = .ok [1, 0, 2] := by decide

example : (pySet ⟨64, fun s => s.length, fun i => i⟩ [] someCountries).map
    (fun r => match r with | .ret l => l.map (·.id) | .exc _ => []) = .ok [0, 1] := by decide

/-- AS 64512 and AS 65000 -/
example : pyCompare ⟨0, .as (some ⟨64512, none⟩)⟩ ⟨1, .as (some ⟨65000, some [88]⟩)⟩ .lt = .ok (.ret true) := by decide

end Loc.Props
