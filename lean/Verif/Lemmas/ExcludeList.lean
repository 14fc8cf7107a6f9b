import Verif.Lemmas.Exclude
/-
Helper lemmas: `loc_network_exclude_list`.
-/
namespace Loc
open Spec

/-! ### a number for each block, compatible with the network order -/

def key (w : List Bool) : Nat := natOfBits w * 2 ^ (128 - w.length) * 129 + w.length

theorem key_path {n : Network} (hb : Block n) : key (path n) = value n.first * 129 + n.pfx := by
  unfold key
  rw [length_path hb.le, natOfBits_path hb]

theorem before_iff_key {m n : Network} (hm : Block m) (hn : Block n) :
    Before m n ↔ key (path m) < key (path n) := by
  rw [key_path hm, key_path hn]
  have := hm.le
  have := hn.le
  unfold Before
  omega

theorem countP_lt_of_mem {l : List Nat} {k x : Nat} (hx : x ∈ l) (hk : k < x) :
    l.countP (fun y => decide (x < y)) < l.countP (fun y => decide (k < y)) := by
  induction l with
  | nil => cases hx
  | cons a l ih =>
    have hmono : l.countP (fun y => decide (x < y)) ≤ l.countP (fun y => decide (k < y)) :=
      List.countP_mono_left (by intro y _ hy; simp at hy ⊢; omega)
    rw [List.countP_cons, List.countP_cons]
    rw [List.mem_cons] at hx
    rcases hx with rfl | hx
    · simp [hk]; omega
    · have := ih hx
      by_cases h1 : x < a
      · have h2 : k < a := by omega
        simp [h1, h2]; omega
      · simp [h1]; omega

/-- keys of all siblings on the ways to the listed networks -/
def sibKeys (list : NetList) : List Nat :=
  list.flatMap fun l => (List.range 128).map fun k =>
    key ((path l).take k ++ [!((path l)[k]?.getD false)])

theorem length_sibKeys (list : NetList) : (sibKeys list).length = 128 * list.length := by
  unfold sibKeys
  induction list with
  | nil => rfl
  | cons l list ih =>
    rw [List.flatMap_cons, List.length_append, ih]
    simp
    omega

theorem mem_sibKeys {list : NetList} {l : Network} (hl : l ∈ list) (hb : Block l) {p w' : List Bool}
    (h : Sib p (path l) w') : key w' ∈ sibKeys list := by
  obtain ⟨w, b, h1, h2, rfl⟩ := h
  unfold sibKeys
  rw [List.mem_flatMap]
  refine ⟨l, hl, ?_⟩
  rw [List.mem_map]
  have hlen := h2.length_le
  rw [length_path hb.le] at hlen
  simp at hlen
  have hble := hb.le
  refine ⟨w.length, by simp; omega, ?_⟩
  obtain ⟨t, ht⟩ := h2
  have e1 : (path l).take w.length = w := by
    rw [← ht, List.append_assoc, List.take_left]
  have e2 : (path l)[w.length]? = some b := by
    rw [← ht]; simp
  rw [e1, e2]
  rfl

/-! ### the scan over the list -/

/-- `s` ends before `x` begins -/
def LeftOf (s x : Network) : Prop := value s.last < value x.first

theorem leftOf_of_before {s x : Network} (hs : Block s) (hx : Block x) (ho : overlaps s x = false)
    (hb : Before s x) : LeftOf s x := by
  unfold LeftOf
  by_cases h : value s.last < value x.first
  · exact h
  · exfalso
    have : overlaps s x = true := by
      unfold overlaps
      rw [if_pos]
      rw [matchesAddress_iff]
      unfold Contains
      unfold Before at hb
      omega
    rw [ho] at this
    cases this

theorem LeftOf.mono {s x y : Network} (h : LeftOf s x) (hb : Before x y) : LeftOf s y := by
  unfold LeftOf Before at *; omega

theorem LeftOf.not_overlap {s x : Network} (hs : Block s) (hx : Block x) (h : LeftOf s x) :
    ∀ a, ¬ (Contains s a ∧ Contains x a) := by
  unfold LeftOf Contains at *
  intro a; omega

def ScanOk (list : NetList) (x : Network) (smallest : Nat) : ExclScan → Prop
  | .passed sm => smallest ≤ sm ∧ (∀ j s, j < sm → list[j]? = some s → LeftOf s x) ∧
      ∀ s ∈ list, overlaps s x = false
  | .dropped sm => smallest ≤ sm ∧ (∀ j s, j < sm → list[j]? = some s → LeftOf s x) ∧
      ∃ s ∈ list, path s <+: path x
  | .split s sm => smallest ≤ sm ∧ (∀ j s, j < sm → list[j]? = some s → LeftOf s x) ∧
      s ∈ list ∧ path x <+: path s ∧ path x ≠ path s

theorem overlaps_false_iff {s x : Network} (hs : Block s) (hx : Block x) :
    overlaps s x = false ↔ ∀ a, ¬ (Contains s a ∧ Contains x a) := by
  rw [← Bool.not_eq_true, overlaps_iff_path hs hx]
  constructor
  · intro h a ⟨h1, h2⟩
    exact h (prefix_or_prefix ((contains_iff_path hs a).mp h1) ((contains_iff_path hx a).mp h2))
  · intro h hh
    rcases hh with hh | hh
    · exact h x.first ⟨(contains_iff_path hs _).mpr (hh.trans ((contains_iff_path hx _).mp (first_contains hx))),
        first_contains hx⟩
    · exact h s.first ⟨first_contains hs,
        (contains_iff_path hx _).mpr (hh.trans ((contains_iff_path hs _).mp (first_contains hs)))⟩

theorem exclScan_spec {list : NetList} (ha : Ascending list) (hbl : ∀ s ∈ list, Block s) {x : Network} (hx : Block x) :
    ∀ (rest : NetList) (i smallest sm0 : Nat), rest = list.drop i → sm0 ≤ smallest → smallest ≤ i →
      (∀ j s, j < i → list[j]? = some s → LeftOf s x) →
      ScanOk list x sm0 (exclScan x i smallest rest) := by
  intro rest
  induction rest with
  | nil =>
    intro i smallest sm0 hr h0 hs hleft
    unfold exclScan
    refine ⟨h0, fun j s hj => hleft j s (by omega), ?_⟩
    intro s hsm
    obtain ⟨j, hj, rfl⟩ := List.getElem_of_mem hsm
    have hlen := congrArg List.length hr
    simp at hlen
    rw [overlaps_false_iff (hbl _ hsm) hx]
    exact (hleft j _ (by omega) (List.getElem?_eq_getElem hj)).not_overlap (hbl _ hsm) hx
  | cons s rest ih =>
    intro i smallest sm0 hr h0 hs hleft
    have hget : list[i]? = some s := by
      have : (list.drop i)[0]? = some s := by rw [← hr]; rfl
      rw [List.getElem?_drop] at this
      simpa using this
    have hmem : s ∈ list := List.mem_of_getElem? hget
    have hbs := hbl s hmem
    have hrest : rest = list.drop (i + 1) := by
      rw [← List.drop_drop, ← hr]; rfl
    unfold exclScan
    by_cases c1 : isSubnet s x = true
    · rw [if_pos c1]
      exact ⟨h0, fun j s hj => hleft j s (by omega), s, hmem, (isSubnet_iff_path hbs hx).mp c1⟩
    rw [if_neg c1]
    by_cases c2 : overlaps s x = true
    · rw [if_pos c2]
      rw [isSubnet_iff_path hbs hx] at c1
      have hp : path x <+: path s := by
        rcases (overlaps_iff_path hbs hx).mp c2 with h | h
        · exact absurd h c1
        · exact h
      refine ⟨h0, fun j s hj => hleft j s (by omega), hmem, hp, ?_⟩
      intro e
      exact c1 (e ▸ List.prefix_refl _)
    rw [if_neg c2]
    have c2 : overlaps s x = false := by simpa using c2
    simp only
    rcases netCmp_spec s x with ⟨hc, hb⟩ | ⟨hc, hb⟩ | ⟨hc, hb⟩
    · rw [if_pos (by omega)]
      refine ⟨h0, fun j s hj => hleft j s (by omega), ?_⟩
      intro t ht
      obtain ⟨j, hj, rfl⟩ := List.getElem_of_mem ht
      have hbt := hbl _ ht
      rw [overlaps_false_iff hbt hx]
      have hov : ∀ a, ¬ (Contains x a ∧ Contains s a) := by
        have := (overlaps_false_iff hbs hx).mp c2
        intro a ⟨h1, h2⟩; exact this a ⟨h2, h1⟩
      have hlx : LeftOf x s := leftOf_of_before hx hbs ((overlaps_false_iff hx hbs).mpr hov) hb
      rcases Nat.lt_trichotomy j i with h | h | h
      · exact (hleft j _ h (List.getElem?_eq_getElem hj)).not_overlap hbt hx
      · subst h
        rw [List.getElem?_eq_getElem hj] at hget
        cases hget
        exact (overlaps_false_iff hbs hx).mp c2
      · have hst : Before s list[j] := asc_get ha h hget (List.getElem?_eq_getElem hj)
        intro a ⟨h1, h2⟩
        exact (hlx.mono hst).not_overlap hx hbt a ⟨h2, h1⟩
    · rw [if_neg (by omega), if_pos (by omega)]
      have hl := leftOf_of_before hbs hx c2 hb
      refine ih (i + 1) i sm0 hrest (by omega) (by omega) ?_
      intro j t hj ht
      by_cases hji : j = i
      · subst hji; rw [hget] at ht; cases ht; exact hl
      · exact hleft j t (by omega) ht
    · exfalso
      have := (overlaps_false_iff hbs hx).mp c2 x.first
      apply this
      have hp := (sameBlock_iff_path hbs hx).mp hb
      refine ⟨?_, first_contains hx⟩
      rw [contains_iff_path hbs, hp]
      exact (contains_iff_path hx _).mp (first_contains hx)

/-! ### the main loop -/

/-- a piece of `n` that is the sibling of a block leading to a listed network -/
def SibPiece (n : Network) (list : NetList) (x : Network) : Prop :=
  ∃ l ∈ list, ∃ w', Sib (path n) (path l) w' ∧ Piece n w' x

structure LoopInv (n : Network) (list toCheck subnets : NetList) (smallest : Nat) : Prop where
  asc : Ascending toCheck
  pieces : ∀ x ∈ toCheck, SibPiece n list x
  subAsc : Ascending subnets
  subPieces : ∀ x ∈ subnets, SibPiece n list x
  subFree : ∀ x ∈ subnets, ∀ s ∈ list, overlaps s x = false
  left : ∀ j s, j < smallest → list[j]? = some s → ∀ x ∈ toCheck, LeftOf s x
  cover : ∀ a, Contains n a → (∀ s ∈ list, ¬ Contains s a) →
    ∃ x, (x ∈ toCheck ∨ x ∈ subnets) ∧ Contains x a

theorem SibPiece.block {n : Network} {list : NetList} {x : Network} (h : SibPiece n list x) : Block x := by
  obtain ⟨_, _, _, _, hp⟩ := h
  exact hp.block

structure ResultOk (n : Network) (list r : NetList) : Prop where
  asc : Ascending r
  pieces : ∀ x ∈ r, SibPiece n list x
  free : ∀ x ∈ r, ∀ s ∈ list, overlaps s x = false
  cover : ∀ a, Contains n a → (∀ s ∈ list, ¬ Contains s a) → ∃ x ∈ r, Contains x a

theorem contains_of_path {x y : Network} (hx : Block x) (hy : Block y) (h : path x <+: path y) {a : Addr}
    (ha : Contains y a) : Contains x a :=
  (contains_iff_path hx a).mpr (h.trans ((contains_iff_path hy a).mp ha))

theorem excludeListLoop_spec {n : Network} (hc : CountryOk n) {list : NetList} (ha : Ascending list)
    (hbl : ∀ s ∈ list, Block s)
    (hsp : ∀ s ∈ list, path n <+: path s → Splittable (path n) (path s)) :
    ∀ (fuel : Nat) (toCheck subnets : NetList) (smallest k : Nat),
      LoopInv n list toCheck subnets smallest →
      (∀ x ∈ toCheck, k ≤ key (path x)) →
      (sibKeys list).countP (fun y => decide (k ≤ y)) < fuel →
      ∃ r, excludeListLoop list toCheck subnets smallest fuel = .ok r ∧ ResultOk n list r := by
  intro fuel
  induction fuel with
  | zero => intro _ _ _ _ _ _ h; omega
  | succ fuel ih =>
    intro toCheck subnets smallest k inv hk hfuel
    cases toCheck with
    | nil =>
      refine ⟨subnets, rfl, inv.subAsc, inv.subPieces, inv.subFree, ?_⟩
      intro a h1 h2
      obtain ⟨x, hx, hxa⟩ := inv.cover a h1 h2
      rcases hx with hx | hx
      · cases hx
      · exact ⟨x, hx, hxa⟩
    | cons x toCheck =>
      unfold excludeListLoop
      simp only [listPopFirst]
      have hasc := List.pairwise_cons.mp inv.asc
      have hxp := inv.pieces x (List.mem_cons_self ..)
      have hbx := hxp.block
      have hkx := hk x (List.mem_cons_self ..)
      -- everything that is still to be checked has a larger key
      have hfuel' : (sibKeys list).countP (fun y => decide (key (path x) + 1 ≤ y)) < fuel := by
        have hin : key (path x) ∈ sibKeys list := by
          obtain ⟨l, hl, w', hs, hp⟩ := hxp
          rw [hp.path_eq]
          exact mem_sibKeys hl (hbl l hl) hs
        have h1 : (sibKeys list).countP (fun y => decide (key (path x) < y)) <
            (sibKeys list).countP (fun y => decide (k ≤ y)) := by
          cases hk0 : k with
          | zero =>
            have h2 : (sibKeys list).countP (fun y => decide (0 ≤ y)) = (sibKeys list).length := by
              rw [List.countP_eq_length]; simp
            rw [h2]
            have h3 := List.countP_le_length (p := fun y => decide (key (path x) < y)) (l := sibKeys list)
            rcases Nat.lt_or_ge ((sibKeys list).countP (fun y => decide (key (path x) < y))) (sibKeys list).length with h | h
            · exact h
            · have h4 : (sibKeys list).countP (fun y => decide (key (path x) < y)) = (sibKeys list).length := by omega
              rw [List.countP_eq_length] at h4
              have := h4 _ hin
              simp at this
          | succ k' =>
            have := countP_lt_of_mem (k := k') hin (by omega)
            simpa [Nat.succ_le_iff] using this
        have h5 : (sibKeys list).countP (fun y => decide (key (path x) + 1 ≤ y)) =
            (sibKeys list).countP (fun y => decide (key (path x) < y)) := by
          congr 1
        omega
      have hbt : ∀ y ∈ toCheck, Block y := fun y hy => (inv.pieces y (List.mem_cons_of_mem _ hy)).block
      have hk' : ∀ y ∈ toCheck, key (path x) + 1 ≤ key (path y) := fun y hy =>
        (before_iff_key hbx (hbt y hy)).mp (hasc.1 y hy)
      obtain ⟨b, hcon, hb⟩ := listContains_spec list x ha
      rw [hcon]
      -- dropping `x` is right if no free address is in it
      have hdrop : ∀ sm, (∀ j s, j < sm → list[j]? = some s → LeftOf s x) →
          (∃ s ∈ list, path s <+: path x) → LoopInv n list toCheck subnets sm := by
        intro sm hsm ⟨s, hs, hp⟩
        refine ⟨hasc.2, fun y hy => inv.pieces y (List.mem_cons_of_mem _ hy), inv.subAsc, inv.subPieces,
          inv.subFree, fun j s hj hs y hy => (hsm j s hj hs).mono (hasc.1 y hy), ?_⟩
        intro a h1 h2
        obtain ⟨y, hy, hya⟩ := inv.cover a h1 h2
        rw [List.mem_cons] at hy
        rcases hy with (rfl | hy) | hy
        · exact absurd (contains_of_path (hbl s hs) hbx hp hya) (h2 s hs)
        · exact ⟨y, .inl hy, hya⟩
        · exact ⟨y, .inr hy, hya⟩
      cases b with
      | true =>
        obtain ⟨e, he, hs⟩ := hb.mp rfl
        refine ih toCheck subnets smallest (key (path x) + 1) ?_ hk' hfuel'
        refine hdrop smallest (fun j s hj hs => inv.left j s hj hs x (List.mem_cons_self ..)) ⟨e, he, ?_⟩
        rw [(sameBlock_iff_path hbx (hbl e he)).mp hs]
        exact List.prefix_refl _
      | false =>
        simp only
        have hscan := exclScan_spec ha hbl hbx (list.drop smallest) smallest smallest smallest rfl
          (Nat.le_refl _) (Nat.le_refl _) (fun j s hj hs => inv.left j s hj hs x (List.mem_cons_self ..))
        generalize exclScan x smallest smallest (list.drop smallest) = res at hscan ⊢
        cases res with
        | dropped sm =>
          obtain ⟨-, h2, h3⟩ := hscan
          exact ih toCheck subnets sm _ (hdrop sm h2 h3) hk' hfuel'
        | passed sm =>
          obtain ⟨-, h2, h3⟩ := hscan
          obtain ⟨l', p1, p2, p3, p4, p5⟩ := push_piece inv.subAsc (fun y hy => (inv.subPieces y hy).block) hbx
          simp only [p1]
          refine ih toCheck l' sm _ ?_ hk' hfuel'
          refine ⟨hasc.2, fun y hy => inv.pieces y (List.mem_cons_of_mem _ hy), p2, ?_, ?_,
            fun j s hj hs y hy => (h2 j s hj hs).mono (hasc.1 y hy), ?_⟩
          · intro y hy
            rcases p4 y hy with hy | rfl
            · exact inv.subPieces y hy
            · exact hxp
          · intro y hy
            rcases p4 y hy with hy | rfl
            · exact inv.subFree y hy
            · exact h3
          · intro a h1 h2
            obtain ⟨y, hy, hya⟩ := inv.cover a h1 h2
            rw [List.mem_cons] at hy
            rcases hy with (rfl | hy) | hy
            · obtain ⟨z, hz, hzp⟩ := p5
              refine ⟨z, .inr hz, ?_⟩
              have hbz : Block z := by
                rcases p4 z hz with hz | rfl
                · exact (inv.subPieces z hz).block
                · exact hbx
              rw [contains_iff_path hbz, hzp, ← contains_iff_path hbx]
              exact hya
            · exact ⟨y, .inl hy, hya⟩
            · exact ⟨y, .inr (p3 y hy), hya⟩
        | split s sm =>
          obtain ⟨-, h2, hs, hp, hne⟩ := hscan
          have hbs := hbl s hs
          obtain ⟨l, hl, w', hsib, hpiece⟩ := id hxp
          have hnx : path n <+: path x := by
            rw [hpiece.path_eq]
            obtain ⟨w, b, g1, g2, rfl⟩ := hsib
            exact g1.trans (List.prefix_append _ _)
          obtain ⟨list', e1, e2⟩ := excludeToList_spec hbx (hpiece.countryOk hc) hbs toCheck hp hne
            ((hsp s hs (hnx.trans hp)).mono hnx) hasc.2 hbt
          simp only [e1]
          have hnew : ∀ y ∈ list', y ∈ toCheck ∨ (SibPiece n list y ∧ Before x y) := by
            intro y hy
            rcases e2.new y hy with hy | ⟨v, hv, hvp⟩
            · exact .inl hy
            · right
              have hxy : path x <+: v := by
                obtain ⟨w, b, g1, g2, rfl⟩ := hv
                exact g1.trans (List.prefix_append _ _)
              have hxne : path x ≠ path y := by
                obtain ⟨w, b, g1, g2, rfl⟩ := hv
                intro e
                rw [hvp.path_eq] at e
                have := congrArg List.length e
                have := g1.length_le
                simp at *
                omega
              refine ⟨⟨s, hs, v, ?_, hpiece.trans hvp⟩, before_of_prefix hbx hvp.block (by rw [hvp.path_eq]; exact hxy) hxne⟩
              obtain ⟨w, b, g1, g2, rfl⟩ := hv
              exact ⟨w, b, hnx.trans g1, g2, rfl⟩
          refine ih list' subnets sm _ ?_ ?_ hfuel'
          · refine ⟨e2.asc, ?_, inv.subAsc, inv.subPieces, inv.subFree, ?_, ?_⟩
            · intro y hy
              rcases hnew y hy with hy | hy
              · exact inv.pieces y (List.mem_cons_of_mem _ hy)
              · exact hy.1
            · intro j t hj ht y hy
              have := h2 j t hj ht
              rcases hnew y hy with hy | hy
              · exact this.mono (hasc.1 y hy)
              · exact this.mono hy.2
            · intro a g1 g2
              obtain ⟨y, hy, hya⟩ := inv.cover a g1 g2
              rw [List.mem_cons] at hy
              rcases hy with (rfl | hy) | hy
              · rw [contains_iff_path hbx] at hya
                rcases sib_cover hp hya (by simp [length_path hbs.le, hbs.le]) with h | ⟨v, hv, hva⟩
                · exact absurd ((contains_iff_path hbs a).mpr h) (g2 s hs)
                · obtain ⟨z, hz, hzp⟩ := e2.all v hv
                  refine ⟨z, .inl hz, ?_⟩
                  have hbz : Block z := by
                    rcases hnew z hz with hz | hz
                    · exact hbt z hz
                    · exact hz.1.block
                  rw [contains_iff_path hbz, hzp]
                  exact hva
              · exact ⟨y, .inl (e2.old y hy), hya⟩
              · exact ⟨y, .inr hy, hya⟩
          · intro y hy
            rcases hnew y hy with h | h
            · exact hk' y h
            · exact (before_iff_key hbx h.1.block).mp h.2

/-- collecting phase -/
structure CollectInv (n : Network) (list seen toCheck : NetList) : Prop where
  asc : Ascending toCheck
  pieces : ∀ x ∈ toCheck, SibPiece n list x
  cover : (∃ s ∈ seen, path n <+: path s ∧ path n ≠ path s) →
    ∀ a, Contains n a → (∀ s ∈ list, ¬ Contains s a) → ∃ x ∈ toCheck, Contains x a
  empty : (¬ ∃ s ∈ seen, path n <+: path s ∧ path n ≠ path s) → toCheck = []

theorem excludeListCollect_spec {n : Network} (hb : Block n) (hc : CountryOk n) {list : NetList}
    (hbl : ∀ s ∈ list, Block s)
    (hsp : ∀ s ∈ list, path n <+: path s → Splittable (path n) (path s)) :
    ∀ (rest seen toCheck : NetList), (∀ s ∈ rest, s ∈ list) → CollectInv n list seen toCheck →
      ∃ r, excludeListCollect n toCheck rest = .ok r ∧ CollectInv n list (seen ++ rest) r := by
  intro rest
  induction rest with
  | nil =>
    intro seen toCheck _ inv
    exact ⟨toCheck, rfl, by simpa using inv⟩
  | cons s rest ih =>
    intro seen toCheck hmem inv
    have hs := hmem s (List.mem_cons_self ..)
    have hbs := hbl s hs
    have hbt : ∀ y ∈ toCheck, Block y := fun y hy => (inv.pieces y hy).block
    have hrest : ∀ t ∈ rest, t ∈ list := fun t ht => hmem t (List.mem_cons_of_mem _ ht)
    have happ : seen ++ s :: rest = (seen ++ [s]) ++ rest := by simp
    unfold excludeListCollect
    obtain ⟨b, hcon, hcb⟩ := listContains_spec toCheck s inv.asc
    rw [hcon, happ]
    cases b with
    | true =>
      simp only
      refine ih _ _ hrest ?_
      obtain ⟨e, he, -⟩ := hcb.mp rfl
      have hseen : ∃ s ∈ seen, path n <+: path s ∧ path n ≠ path s := by
        by_cases h : ∃ s ∈ seen, path n <+: path s ∧ path n ≠ path s
        · exact h
        · rw [inv.empty h] at he; cases he
      refine ⟨inv.asc, inv.pieces, fun _ => inv.cover hseen, ?_⟩
      intro h
      exfalso
      apply h
      obtain ⟨t, ht, h2⟩ := hseen
      exact ⟨t, by simp [ht], h2⟩
    | false =>
      simp only
      by_cases hstrict : path n <+: path s ∧ path n ≠ path s
      · obtain ⟨list', e1, e2⟩ := excludeToList_spec hb hc hbs toCheck hstrict.1 hstrict.2
          (hsp s hs hstrict.1) inv.asc hbt
        rw [e1]
        simp only
        refine ih _ _ hrest ?_
        have hp : ∀ x ∈ list', SibPiece n list x := by
          intro x hx
          rcases e2.new x hx with hx | ⟨w', h1, h2⟩
          · exact inv.pieces x hx
          · exact ⟨s, hs, w', h1, h2⟩
        refine ⟨e2.asc, hp, ?_, ?_⟩
        · intro _ a g1 g2
          rw [contains_iff_path hb] at g1
          rcases sib_cover hstrict.1 g1 (by simp [length_path hbs.le, hbs.le]) with h | ⟨v, hv, hva⟩
          · exact absurd ((contains_iff_path hbs a).mpr h) (g2 s hs)
          · obtain ⟨z, hz, hzp⟩ := e2.all v hv
            refine ⟨z, hz, ?_⟩
            rw [contains_iff_path (hp z hz).block, hzp]
            exact hva
        · intro h
          exact absurd ⟨s, by simp, hstrict⟩ h
      · rw [excludeToList_none hb hbs toCheck hstrict]
        simp only
        refine ih _ _ hrest ?_
        have hiff : (∃ t ∈ seen ++ [s], path n <+: path t ∧ path n ≠ path t) ↔
            ∃ t ∈ seen, path n <+: path t ∧ path n ≠ path t := by
          constructor
          · rintro ⟨t, ht, h⟩
            rw [List.mem_append, List.mem_singleton] at ht
            rcases ht with ht | rfl
            · exact ⟨t, ht, h⟩
            · exact absurd h hstrict
          · rintro ⟨t, ht, h⟩
            exact ⟨t, by simp [ht], h⟩
        refine ⟨inv.asc, inv.pieces, ?_, ?_⟩
        · rw [hiff]; exact inv.cover
        · rw [hiff]; exact inv.empty

theorem excludeList_spec {n : Network} (hb : Block n) (hc : CountryOk n) {list : NetList}
    (ha : Ascending list) (hbl : ∀ s ∈ list, Block s)
    (hsp : ∀ s ∈ list, path n <+: path s → Splittable (path n) (path s))
    (hex : ∃ s ∈ list, path n <+: path s ∧ path n ≠ path s)
    (fuel : Nat) (hf : 128 * list.length < fuel) :
    ∃ r, excludeList fuel n list = .ok r ∧ ResultOk n list r := by
  obtain ⟨toCheck, h1, h2⟩ := excludeListCollect_spec hb hc hbl hsp list [] [] (fun s h => h)
    ⟨List.Pairwise.nil, by simp, by simp, by simp⟩
  unfold excludeList
  rw [h1]
  simp only
  refine excludeListLoop_spec hc ha hbl hsp fuel toCheck [] 0 0 ?_ (by simp) ?_
  · refine ⟨h2.asc, h2.pieces, List.Pairwise.nil, by simp, by simp, by simp, ?_⟩
    intro a g1 g2
    obtain ⟨x, hx, hxa⟩ := h2.cover (by simpa using hex) a g1 g2
    exact ⟨x, .inl hx, hxa⟩
  · have := List.countP_le_length (p := fun y => decide (0 ≤ y)) (l := sibKeys list)
    rw [length_sibKeys] at this
    omega

/-- without a strict subnet on the list the result is empty -/
theorem excludeList_none {n : Network} (hb : Block n) {list : NetList}
    (hbl : ∀ s ∈ list, Block s)
    (hex : ¬ ∃ s ∈ list, path n <+: path s ∧ path n ≠ path s)
    (fuel : Nat) (hf : 0 < fuel) : excludeList fuel n list = .ok [] := by
  have key : ∀ rest : NetList, (∀ s ∈ rest, s ∈ list) → excludeListCollect n [] rest = .ok [] := by
    intro rest
    induction rest with
    | nil => intro _; rfl
    | cons s rest ih =>
      intro h
      have hs := h s (List.mem_cons_self ..)
      unfold excludeListCollect
      have h1 : listContains [] s = .ok false := rfl
      rw [h1]
      simp only
      rw [excludeToList_none hb (hbl s hs) [] (fun hh => hex ⟨s, hs, hh⟩)]
      exact ih (fun t ht => h t (List.mem_cons_of_mem _ ht))
  unfold excludeList
  rw [key list (fun s h => h)]
  cases fuel with
  | zero => omega
  | succ f => rfl

/-- pieces that avoid the whole list are pairwise disjoint -/
theorem resultOk_disjoint {n : Network} {list r : NetList} (hbl : ∀ s ∈ list, Block s)
    (h : ResultOk n list r) : PairwiseDisjoint r := by
  unfold PairwiseDisjoint
  have hasc := h.asc
  unfold Ascending at hasc
  -- nested pieces coincide
  have nest : ∀ x ∈ r, ∀ y ∈ r, path x <+: path y → path x = path y := by
    intro x hx y hy hp
    by_cases e : path x = path y
    · exact e
    · exfalso
      obtain ⟨l, hl, w', ⟨w, b, g1, g2, rfl⟩, hpc⟩ := h.pieces y hy
      have hbl' := hbl l hl
      have hbx := (h.pieces x hx).block
      rw [hpc.path_eq] at hp e
      rw [List.prefix_concat_iff] at hp
      rcases hp with hp | hp
      · exact e hp
      · have hov : overlaps l x = true :=
          (overlaps_iff_path hbl' hbx).mpr (.inr (hp.trans ((List.prefix_append _ _).trans g2)))
        rw [h.free x hx l hl] at hov
        cases hov
  refine (List.Pairwise.and_mem.mp hasc).imp ?_
  rintro x y ⟨hx, hy, hb⟩ a ⟨h1, h2⟩
  have hbx := (h.pieces x hx).block
  have hby := (h.pieces y hy).block
  rw [contains_iff_path hbx] at h1
  rw [contains_iff_path hby] at h2
  have he : path x = path y := by
    rcases prefix_or_prefix h1 h2 with hp | hp
    · exact nest x hx y hy hp
    · exact (nest y hy x hx hp).symm
  exact before_not_same hb ((sameBlock_iff_path hbx hby).mpr he)

end Loc
