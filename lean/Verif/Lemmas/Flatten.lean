import Verif.Model.Flatten
import Verif.Lemmas.Need
import Verif.Lemmas.Odd
import Verif.Lemmas.ExcludeOdd
/-
Flattened enumerations: a step of the enumeration on the list of the networks still to come, and its invariants.
-/
namespace Loc
open Spec

/-! ### a step on lists -/

/-- A flattened step on the list of networks still to come. -/
def flatL (f : Filter) : Nat → List Network → Res (Next Network × List Network)
  | 0, _ => .error .diverge
  | fuel + 1, l =>
    match l.dropWhile (fun m => !matchNetwork f m) with
    | [] => .ok (.done, [])
    | n :: post =>
      if (post.takeWhile (isSubnet n)).isEmpty then .ok (.item n, post.dropWhile (isSubnet n))
      else
        match excludeList (128 * (post.takeWhile (isSubnet n)).length + 1) n (post.takeWhile (isSubnet n)) with
        | .error (.err _) => .ok (.failedHeld, post.dropWhile (isSubnet n))
        | .error x => .error x
        | .ok excluded =>
          match listMerge (post.dropWhile (isSubnet n)) (post.takeWhile (isSubnet n)) with
          | .error x => .error x
          | .ok l1 =>
            match listMerge l1 excluded with
            | .error x => .error x
            | .ok l2 => flatL f fuel l2

/-- What is still to come. -/
structure Ahead (l : List Network) : Prop where
  asc : Ascending l
  blk : ∀ n ∈ l, Block n
  cok : ∀ n ∈ l, CountryOk n

/-- Networks with others inside of them were there before. -/
def Nested (l l' : List Network) : Prop := ∀ m ∈ l', ∀ n ∈ l', StrictlyInside m n → m ∈ l ∧ n ∈ l

theorem Ahead.sub {l l' : List Network} (h : Ahead l) (hs : l'.Sublist l) : Ahead l' :=
  ⟨List.Pairwise.sublist hs h.asc, fun n hn => h.blk n (hs.subset hn), fun n hn => h.cok n (hs.subset hn)⟩

/-! ### lists -/

theorem listPush_eq {l l' : NetList} {n : Network} (h : Ascending l) (h' : Ascending l') (hs : ∀ e ∈ l, ¬ SameBlock n e)
    (hm : ∀ x, x ∈ l' ↔ x ∈ l ∨ x = n) : listPush l n = .ok l' := by
  obtain ⟨l2, h1, h2, h3⟩ := listPush_mem l n h
  rw [h1]
  congr 1
  refine ascending_ext h2 h' fun x => ?_
  rw [h3, hm]
  have : ¬ ∃ e ∈ l, SameBlock n e := fun ⟨e, he, hse⟩ => hs e he hse
  simp only [this, not_false_eq_true, and_true]

theorem listPush_end {l : NetList} {n : Network} (h : Ascending (l ++ [n])) : listPush l n = .ok (l ++ [n]) := by
  have h1 := List.pairwise_append.mp h
  exact listPush_eq h1.1 h (fun e he hs => before_not_same (h1.2.2 e he n (by simp)) (sameBlock_symm hs)) (by simp)

theorem listPush_front {l : NetList} {n : Network} (h : Ascending (n :: l)) : listPush l n = .ok (n :: l) := by
  have h1 := List.pairwise_cons.mp h
  exact listPush_eq h1.2 h (fun e he hs => before_not_same (h1.1 e he) hs) (by simp [or_comm])

/-- Merging a list into a part of a longer list. -/
theorem listMerge_tail {s rest other : NetList} (h : Ascending (s ++ rest)) (ho : Ascending other)
    (hb : ∀ x ∈ other, ∀ r ∈ rest, Before x r) (hs : ∀ x ∈ other, ∀ e ∈ s, ¬ SameBlock x e) :
    ∃ s', listMerge s other = .ok s' ∧ listMerge (s ++ rest) other = .ok (s' ++ rest) ∧ Ascending (s' ++ rest) ∧
      ∀ x, x ∈ s' ↔ x ∈ s ∨ x ∈ other := by
  have h1 := List.pairwise_append.mp h
  obtain ⟨s', a1, a2, a3⟩ := listMerge_mem other s h1.1 ho
  obtain ⟨l', b1, b2, b3⟩ := listMerge_mem other (s ++ rest) h ho
  have a4 : ∀ x, x ∈ s' ↔ x ∈ s ∨ x ∈ other := by
    intro x
    rw [a3]
    refine or_congr_right ⟨And.left, fun hx => ⟨hx, ?_⟩⟩
    rintro ⟨e, he, hse⟩
    exact hs x hx e he hse
  have b4 : ∀ x, x ∈ l' ↔ x ∈ s ++ rest ∨ x ∈ other := by
    intro x
    rw [b3]
    refine or_congr_right ⟨And.left, fun hx => ⟨hx, ?_⟩⟩
    rintro ⟨e, he, hse⟩
    rcases List.mem_append.mp he with he | he
    · exact hs x hx e he hse
    · exact before_not_same (hb x hx e he) hse
  have hasc : Ascending (s' ++ rest) := by
    refine List.pairwise_append.mpr ⟨a2, h1.2.1, fun x hx r hr => ?_⟩
    rcases (a4 x).mp hx with hx | hx
    · exact h1.2.2 x hx r hr
    · exact hb x hx r hr
  refine ⟨s', a1, ?_, hasc, a4⟩
  rw [b1]
  congr 1
  refine ascending_ext b2 hasc fun x => ?_
  rw [b4, List.mem_append, List.mem_append, a4]
  constructor
  · rintro ((h | h) | h)
    · exact .inl (.inl h)
    · exact .inr h
    · exact .inl (.inr h)
  · rintro ((h | h) | h)
    · exact .inl (.inl h)
    · exact .inr h
    · exact .inl (.inr h)

/-! ### blocks sharing an address -/

theorem share_path {m k : Network} (hm : Block m) (hk : Block k) {a : Addr} (h1 : Contains m a) (h2 : Contains k a)
    (hp : m.pfx ≤ k.pfx) : path m <+: path k := by
  rw [contains_iff_path hm] at h1
  rw [contains_iff_path hk] at h2
  exact List.prefix_of_prefix_length_le h1 h2 (by rw [length_path hm.le, length_path hk.le]; exact hp)

theorem not_before_of_path {m k : Network} (hm : Block m) (hk : Block k) (h : path k <+: path m) : ¬ Before m k := by
  have h1 := (path_prefix_iff hk hm).mp h m.first (first_contains hm)
  have h2 := h.length_le
  rw [length_path hm.le, length_path hk.le] at h2
  unfold Contains at h1
  unfold Before
  omega

theorem leftOf_not_share {m k : Network} (h : LeftOf m k) (a : Addr) : ¬ (Contains m a ∧ Contains k a) := by
  unfold LeftOf at h
  unfold Contains
  omega

theorem overlaps_of_share {m k : Network} (hm : Block m) (hk : Block k) {a : Addr} (h1 : Contains m a) (h2 : Contains k a) :
    overlaps m k = true := by
  rw [overlaps_iff_path hm hk]
  rw [contains_iff_path hm] at h1
  rw [contains_iff_path hk] at h2
  exact prefix_or_prefix h1 h2

/-! ### the subnets of a network follow it -/

theorem mem_takeWhile_imp {p : Network → Bool} {l : List Network} {x : Network} (h : x ∈ l.takeWhile p) : p x = true := by
  induction l with
  | nil => cases h
  | cons y l ih =>
    rw [List.takeWhile_cons] at h
    split at h
    · rename_i hy
      rcases List.mem_cons.mp h with rfl | h
      · exact hy
      · exact ih h
    · cases h

theorem subs_inside {n : Network} {post : List Network} (ha : Ascending (n :: post)) (hb : ∀ m ∈ n :: post, Block m) :
    ∀ s ∈ post.takeWhile (isSubnet n), StrictlyInside s n ∧ path n <+: path s ∧ path n ≠ path s := by
  intro s hs
  have hmem : s ∈ post := (List.takeWhile_sublist _).subset hs
  have hbn := hb n (by simp)
  have hbs := hb s (by simp [hmem])
  have hsub := (isSubnet_iff_path hbn hbs).mp (mem_takeWhile_imp hs)
  have hbef := (List.pairwise_cons.mp ha).1 s hmem
  have hne : ¬ SameBlock s n := fun h => before_not_same hbef (sameBlock_symm h)
  exact ⟨⟨(inside_iff_path hbs hbn).mpr hsub, hne⟩, hsub, fun h => hne ((sameBlock_iff_path hbs hbn).mpr h.symm)⟩

theorem rest_left {n : Network} {post : List Network} (ha : Ascending (n :: post)) (hb : ∀ m ∈ n :: post, Block m) :
    ∀ r ∈ post.dropWhile (isSubnet n), LeftOf n r := by
  have hd : (post.dropWhile (isSubnet n)).Sublist post := List.dropWhile_sublist _
  have hnot := List.head?_dropWhile_not (isSubnet n) post
  cases hc : post.dropWhile (isSubnet n) with
  | nil => intro r hr; cases hr
  | cons r0 rest =>
    rw [hc] at hnot hd
    simp only [List.head?_cons] at hnot
    have hmem : r0 ∈ post := hd.subset (by simp)
    have hbn := hb n (by simp)
    have hb0 := hb r0 (by simp [hmem])
    have hbef := (List.pairwise_cons.mp ha).1 r0 hmem
    have hno : overlaps n r0 = false := by
      cases h : overlaps n r0 with
      | false => rfl
      | true =>
        rcases (overlaps_iff_path hbn hb0).mp h with h | h
        · rw [(isSubnet_iff_path hbn hb0).mpr h] at hnot
          cases hnot
        · exact absurd hbef (not_before_of_path hbn hb0 h)
    have hl := leftOf_of_before hbn hb0 hno hbef
    intro r hr
    rcases List.mem_cons.mp hr with rfl | hr
    · exact hl
    · exact hl.mono ((List.pairwise_cons.mp (List.Pairwise.sublist hd (List.pairwise_cons.mp ha).2)).1 r hr)

/-- The result of cutting the subnets out. -/
structure Cut (n : Network) (subs rest excl l2 : List Network) : Prop where
  mem : ∀ x, x ∈ l2 ↔ x ∈ rest ∨ x ∈ subs ∨ x ∈ excl
  asc : Ascending l2
  block : ∀ x ∈ excl, Block x
  inside : ∀ x ∈ excl, path n <+: path x
  cok : ∀ x ∈ excl, CountryOk x
  pr : ∀ x ∈ excl, props x = props n ∧ x.asn = n.asn ∧ x.flags = n.flags
  fam : ∀ x ∈ excl, IsV4 x.first ↔ IsV4 n.first
  alone : ∀ x ∈ excl, ∀ y ∈ l2, ∀ a, Contains x a → Contains y a → y = x
  apart : ∀ x ∈ excl, ¬ (x ∈ subs ∨ x ∈ rest)
  cover : ∀ a, Contains n a → (∀ s ∈ subs, ¬ Contains s a) → ∃ x ∈ excl, Contains x a

theorem piece_countryOk {n x : Network} {w : List Bool} (h : Piece n w x) (hc : CountryOk n) : CountryOk x := by
  rcases hc with hc | hc
  · exact .inl (h.cc0.trans hc)
  · refine .inr ?_
    rw [h.cc0, h.cc1, if_neg (validCC_ne_zero hc).1]
    exact hc

/-- A piece is of the family of its network: the last cut on the way to the IPv4 range is impossible. -/
theorem piece_family {n l x : List Bool} (hs : Splittable n l) (h : Sib n l x) : v4path <+: x ↔ v4path <+: n := by
  obtain ⟨w, b, h1, h2, rfl⟩ := h
  refine ⟨fun h => ?_, fun h => h.trans (h1.trans (List.prefix_append _ _))⟩
  have hodd : List.replicate 80 false ++ List.replicate 15 true <+: w := by
    rcases (v4path_concat_iff _ _).mp h with h | ⟨h, -⟩
    · rw [v4path_concat] at h
      exact (List.prefix_append _ _).trans h
    · rw [h]; exact List.prefix_rfl
  rcases prefix_or_prefix (h1.trans (List.prefix_append w [!b])) h with h' | h'
  · rw [v4path_concat, List.prefix_concat_iff] at h'
    rcases h' with h' | h'
    · rw [v4path_concat, h']; exact List.prefix_rfl
    · refine absurd (.inr rfl) (hs _ h' (hodd.trans ((List.prefix_append _ _).trans h2)) ?_)
      intro e
      have l1 := hodd.length_le
      have l2 := h2.length_le
      rw [e] at l1
      simp at l2
      omega
  · exact h'

/-- Cutting the subnets out succeeds; only the part of the list before `rest'` is touched. -/
theorem cut_ok {n : Network} {post : List Network} (hg : Ahead (n :: post)) (hne : post.takeWhile (isSubnet n) ≠ [])
    (hodd : ∀ x ∈ post.takeWhile (isSubnet n), ¬ CutsOddBlock n x) {s rest' : List Network} (hsplit : post.dropWhile (isSubnet n) = s ++ rest') :
    ∃ excl s1 s2, excludeList (128 * (post.takeWhile (isSubnet n)).length + 1) n (post.takeWhile (isSubnet n)) = .ok excl ∧
      listMerge s (post.takeWhile (isSubnet n)) = .ok s1 ∧ listMerge s1 excl = .ok s2 ∧
      listMerge (s ++ rest') (post.takeWhile (isSubnet n)) = .ok (s1 ++ rest') ∧ listMerge (s1 ++ rest') excl = .ok (s2 ++ rest') ∧
      Cut n (post.takeWhile (isSubnet n)) (s ++ rest') excl (s2 ++ rest') := by
  have hin := subs_inside hg.asc hg.blk
  have hrl := rest_left hg.asc hg.blk
  have hpost := List.takeWhile_append_dropWhile (p := isSubnet n) (l := post)
  rw [hsplit] at hrl hpost
  generalize post.takeWhile (isSubnet n) = subs at *
  subst hpost
  have hap := List.pairwise_append.mp (List.pairwise_cons.mp hg.asc).2
  have hbn := hg.blk n (by simp)
  have hbs : ∀ x ∈ subs, Block x := fun x hx => hg.blk x (by simp [hx])
  have hbr : ∀ x ∈ s ++ rest', Block x := fun x hx => hg.blk x (by simp only [List.mem_cons, List.mem_append] at *; tauto)
  obtain ⟨excl, e1, e2⟩ := excludeList_spec hbn (hg.cok n (by simp)) hap.1 hbs
    (fun x hx hp => (splittable_iff hbn (hbs x hx) hp).mpr (hodd x hx))
    (by
      obtain ⟨x, hx⟩ := List.exists_mem_of_ne_nil _ hne
      exact ⟨x, hx, (hin x hx).2⟩) (128 * subs.length + 1) (by omega)
  have hblock : ∀ x ∈ excl, Block x := by
    intro x hx
    obtain ⟨l, hl, w, hw, p⟩ := e2.pieces x hx
    exact p.block
  have hpath : ∀ x ∈ excl, path n <+: path x := by
    intro x hx
    obtain ⟨l, hl, w, hw, p⟩ := e2.pieces x hx
    rw [p.path_eq]
    exact (sib_sound hw List.prefix_rfl).1
  have hleft : ∀ x ∈ excl, ∀ r ∈ s ++ rest', ∀ a, Contains x a → ¬ Contains r a := by
    intro x hx r hr a h1 h2
    exact leftOf_not_share (hrl r hr) a ⟨contains_of_path hbn (hblock x hx) (hpath x hx) h1, h2⟩
  have hfree : ∀ x ∈ excl, ∀ y ∈ subs, ∀ a, Contains x a → ¬ Contains y a := by
    intro x hx y hy a h1 h2
    have := overlaps_of_share (hbs y hy) (hblock x hx) h2 h1
    rw [e2.free x hx y hy] at this
    cases this
  have hnosame : ∀ x y : Network, Block x → Block y → (∀ a, Contains x a → ¬ Contains y a) → ¬ SameBlock x y := by
    intro x y hx hy hd hs
    refine hd x.first (first_contains hx) ?_
    rw [contains_iff_path hy, ← (sameBlock_iff_path hx hy).mp hs, ← contains_iff_path hx]
    exact first_contains hx
  obtain ⟨s1, a1, a2, a3, a4⟩ := listMerge_tail (s := s) (rest := rest') (other := subs) hap.2.1 hap.1
    (fun x hx r hr => hap.2.2 x hx r (by simp [hr]))
    (fun x hx y hy => before_not_same (hap.2.2 x hx y (by simp [hy])))
  obtain ⟨s2, b1, b2, b3, b4⟩ := listMerge_tail (s := s1) (rest := rest') (other := excl) a3 e2.asc
    (by
      intro x hx r hr
      refine before_of_last_lt (hblock x hx) ?_
      have h1 := hrl r (by simp [hr])
      have h2 := contains_of_path hbn (hblock x hx) (hpath x hx) (last_contains (hblock x hx))
      unfold LeftOf at h1
      unfold Contains at h2
      omega)
    (by
      intro x hx y hy
      rcases (a4 y).mp hy with hy | hy
      · exact hnosame x y (hblock x hx) (hbr y (by simp [hy])) (hleft x hx y (by simp [hy]))
      · exact hnosame x y (hblock x hx) (hbs y hy) (hfree x hx y hy))
  have hmem : ∀ x, x ∈ s2 ++ rest' ↔ x ∈ s ++ rest' ∨ x ∈ subs ∨ x ∈ excl := by
    intro x
    simp only [List.mem_append, b4, a4]
    constructor
    · rintro (((h | h) | h) | h)
      · exact .inl (.inl h)
      · exact .inr (.inl h)
      · exact .inr (.inr h)
      · exact .inl (.inr h)
    · rintro ((h | h) | h | h)
      · exact .inl (.inl (.inl h))
      · exact .inr h
      · exact .inl (.inl (.inr h))
      · exact .inl (.inr h)
  refine ⟨excl, s1, s2, e1, a1, b1, a2, b2, hmem, b3, hblock, hpath, ?_, ?_, ?_, ?_, ?_, e2.cover⟩
  · intro x hx
    obtain ⟨l, hl, w, hw, p⟩ := e2.pieces x hx
    exact piece_countryOk p (hg.cok n (by simp))
  · intro x hx
    obtain ⟨l, hl, w, hw, p⟩ := e2.pieces x hx
    exact ⟨p.props, p.asn, p.flags⟩
  · intro x hx
    obtain ⟨l, hl, w, hw, p⟩ := e2.pieces x hx
    rw [← p.block.fam, ← hbn.fam, block_v4_iff p.block, block_v4_iff hbn]
    rw [← p.path_eq] at hw
    exact piece_family ((splittable_iff hbn (hbs l hl) (hin l hl).2.1).mpr (hodd l hl)) hw
  · intro x hx y hy a h1 h2
    rcases (hmem y).mp hy with hy | hy | hy
    · exact absurd h2 (hleft x hx y hy a h1)
    · exact absurd h2 (hfree x hx y hy a h1)
    · by_contra hne
      have hd := resultOk_disjoint hbs e2
      unfold PairwiseDisjoint at hd
      obtain ⟨i, hi, rfl⟩ := List.getElem_of_mem hx
      obtain ⟨j, hj, rfl⟩ := List.getElem_of_mem hy
      rcases Nat.lt_trichotomy i j with hij | hij | hij
      · exact List.pairwise_iff_getElem.mp hd i j hi hj hij a ⟨h1, h2⟩
      · subst hij; exact hne rfl
      · exact List.pairwise_iff_getElem.mp hd j i hj hi hij a ⟨h2, h1⟩
  · rintro x hx (h | h)
    · exact hfree x hx x h _ (first_contains (hblock x hx)) (first_contains (hblock x hx))
    · exact hleft x hx x h _ (first_contains (hblock x hx)) (first_contains (hblock x hx))

/-- If a subnet cannot be cut out, the exclusion fails. -/
theorem cut_stuck {n : Network} {post : List Network} (hg : Ahead (n :: post)) (hodd : ∃ x ∈ post.takeWhile (isSubnet n), CutsOddBlock n x) (fuel : Nat) :
    excludeList fuel n (post.takeWhile (isSubnet n)) = .error (.err EINVAL) := by
  have hin := subs_inside hg.asc hg.blk
  have hbn := hg.blk n (by simp)
  have hbs : ∀ x ∈ post.takeWhile (isSubnet n), Block x := fun x hx => hg.blk x (by simp [(List.takeWhile_sublist _).subset hx])
  obtain ⟨x, hx, ho⟩ := hodd
  exact excludeList_stuck hbn (hg.cok n (by simp)) hbs
    ⟨x, hx, (hin x hx).2.1, fun h => (splittable_iff hbn (hbs x hx) (hin x hx).2.1).mp h ho⟩ fuel

theorem cut_good {n : Network} {subs rest excl l2 : List Network} (hg : Ahead (n :: (subs ++ rest))) (hc : Cut n subs rest excl l2) :
    Ahead l2 ∧ Nested (n :: (subs ++ rest)) l2 := by
  have hold : ∀ x, x ∈ rest ∨ x ∈ subs → x ∈ n :: (subs ++ rest) := by
    rintro x (h | h) <;> simp [h]
  have hb : ∀ x ∈ l2, Block x := by
    intro x hx
    rcases (hc.mem x).mp hx with h | h | h
    · exact hg.blk x (hold x (.inl h))
    · exact hg.blk x (hold x (.inr h))
    · exact hc.block x h
  refine ⟨⟨hc.asc, hb, ?_⟩, ?_⟩
  · intro x hx
    rcases (hc.mem x).mp hx with h | h | h
    · exact hg.cok x (hold x (.inl h))
    · exact hg.cok x (hold x (.inr h))
    · exact hc.cok x h
  · intro x hx y hy hi
    have hxe : x ∉ excl := by
      intro h
      have := hc.alone x h y hy x.first (first_contains (hb x hx)) (hi.1 _ (first_contains (hb x hx)))
      exact hi.2 (by rw [this]; exact ⟨rfl, rfl⟩)
    have hye : y ∉ excl := by
      intro h
      have := hc.alone y h x hx x.first (hi.1 _ (first_contains (hb x hx))) (first_contains (hb x hx))
      exact hi.2 (by rw [this]; exact ⟨rfl, rfl⟩)
    have hx' := (hc.mem x).mp hx
    have hy' := (hc.mem y).mp hy
    simp only [hxe, hye, or_false] at hx' hy'
    exact ⟨hold x hx', hold y hy'⟩

/-! ### the enumerator follows the list -/

theorem enumAt_stack {db : Db} {e : NetEnum} {l : List Network} (h : EnumAt db e l) :
    ∃ rest, l = e.stack ++ rest ∧ ∀ s, EnumAt db { e with stack := s } (s ++ rest) := by
  obtain ⟨recs, nets, junk, P, enc, hi, hov, hst, rfl⟩ := h
  refine ⟨_, rfl, fun s => ⟨recs, nets, junk, P, enc, ?_, hov, hst, rfl⟩⟩
  exact ⟨hi.stk, hi.nodup, hi.disj, hi.addr, hi.mono, hi.tail, hi.zero, hi.good, hi.country, hi.len, hi.visited, hi.range⟩

theorem collect_spec {db : Db} {n : Network} : ∀ (fuel : Nat) (l : List Network) (e : NetEnum) (subs : NetList), EnumAt db e l →
    Ascending (subs ++ l) → l.length < fuel →
    ∃ e', collectSubnets db n fuel e subs = .ok (some (subs ++ l.takeWhile (isSubnet n)), e') ∧ EnumAt db e' (l.dropWhile (isSubnet n)) ∧
      e'.filter = e.filter ∧ e'.gap6 = e.gap6 ∧ e'.gap4 = e.gap4 := by
  intro fuel
  induction fuel with
  | zero => intro l e subs _ _ h; omega
  | succ fuel ih =>
    intro l e subs he ha hl
    rcases next_enumAt he false with ⟨pre, m, post, e', rfl, h2, h3, h4, h5, h6, h7, h8⟩ | ⟨e', h1, h2, h3, h4, h5, h6⟩
    · have hpre : pre = [] := by
        cases pre with
        | nil => rfl
        | cons x pre => exact absurd (h2 x (by simp)) (by simp)
      subst hpre
      rw [List.nil_append] at ha hl ⊢
      rw [collectSubnets, h4]
      simp only
      cases hs : isSubnet n m with
      | true =>
        rw [if_pos rfl, listPush_end (by
          unfold Ascending
          refine List.Pairwise.sublist ?_ ha
          exact List.Sublist.append_left (by simp) _)]
        simp only
        obtain ⟨e2, g1, g2, g3, g4, g5⟩ := ih post e' (subs ++ [m]) h5 (by simpa using ha) (by simp at hl; omega)
        refine ⟨e2, ?_, ?_, g3.trans h6, g4.trans h7, g5.trans h8⟩
        · rw [g1, List.takeWhile_cons_of_pos hs]
          simp
        · rw [List.dropWhile_cons_of_pos hs]
          exact g2
      | false =>
        rw [if_neg (by simp)]
        obtain ⟨rest, r1, r2⟩ := enumAt_stack h5
        rw [listPush_front (by
          unfold Ascending
          refine List.Pairwise.sublist ?_ ha
          rw [r1]
          refine List.Sublist.trans ?_ (List.sublist_append_right subs _)
          exact List.Sublist.cons_cons _ (List.sublist_append_left _ _))]
        simp only
        refine ⟨{ e' with stack := m :: e'.stack }, ?_, ?_, h6, h7, h8⟩
        · rw [List.takeWhile_cons_of_neg (by simp [hs])]
          simp
        · rw [List.dropWhile_cons_of_neg (by simp [hs]), r1]
          exact r2 (m :: e'.stack)
    · have hnil : l = [] := by
        cases l with
        | nil => rfl
        | cons x l => exact absurd (h1 x (by simp)) (by simp)
      subst hnil
      rw [collectSubnets, h2]
      exact ⟨e', by simp, h3, h4, h5, h6⟩

theorem dropWhile_split {f : Filter} {pre post : List Network} {n : Network} (h1 : ∀ m ∈ pre, matchNetwork f m = false)
    (h2 : matchNetwork f n = true) : (pre ++ n :: post).dropWhile (fun m => !matchNetwork f m) = n :: post := by
  induction pre with
  | nil => rw [List.nil_append, List.dropWhile_cons_of_neg (by simp [h2])]
  | cons x pre ih =>
    rw [List.cons_append, List.dropWhile_cons_of_pos (by simp [h1 x (by simp)])]
    exact ih fun m hm => h1 m (by simp [hm])

theorem dropWhile_none {f : Filter} {l : List Network} (h1 : ∀ m ∈ l, matchNetwork f m = false) :
    l.dropWhile (fun m => !matchNetwork f m) = [] := by
  induction l with
  | nil => rfl
  | cons x pre ih =>
    rw [List.dropWhile_cons_of_pos (by simp [h1 x (by simp)])]
    exact ih fun m hm => h1 m (by simp [hm])

theorem flat_sim {db : Db} : ∀ (k : Nat) (l l' : List Network) (e : NetEnum) (x : Next Network), EnumAt db e l → Ahead l →
    flatL e.filter k l = .ok (x, l') →
    ∃ e' K, (∀ fuel, K ≤ fuel → nextFlat db fuel e = .ok (x, e')) ∧ EnumAt db e' l' ∧ e'.filter = e.filter := by
  intro k
  induction k with
  | zero => intro l l' e x _ _ h; cases h
  | succ k ih =>
    intro l l' e x he hg h
    rw [flatL] at h
    rcases next_enumAt he true with ⟨pre, n, post, e1, rfl, h2, h3, h4, h5, h6, -⟩ | ⟨e1, h1, h2, h3, h4, -⟩
    · simp only [Bool.not_true, Bool.false_or] at h2 h3
      rw [dropWhile_split h2 h3] at h
      simp only at h
      have hg' : Ahead (n :: post) := hg.sub (List.sublist_append_right _ _)
      obtain ⟨e2, c1, c2, c3, -⟩ := collect_spec (n := n) (post.length + 1) post e1 [] h5 (List.pairwise_cons.mp hg'.asc).2 (by omega)
      have c1 : ∀ fuel, post.length < fuel → collectSubnets db n fuel e1 [] = .ok (some (post.takeWhile (isSubnet n)), e2) := by
        intro fuel hf
        obtain ⟨e3, d1, -⟩ := collect_spec (n := n) fuel post e1 [] h5 (List.pairwise_cons.mp hg'.asc).2 hf
        have : ∀ (a b : Nat) (e : NetEnum) (subs : NetList) (r : Option NetList × NetEnum), a ≤ b → collectSubnets db n a e subs = .ok r →
            collectSubnets db n b e subs = .ok r := by
          intro a
          induction a with
          | zero => intro b e subs r _ h; cases h
          | succ a iha =>
            intro b e subs r hab h
            obtain ⟨b, rfl⟩ : ∃ b', b = b' + 1 := ⟨b - 1, by omega⟩
            rw [collectSubnets] at h ⊢
            split at h
            · cases h
            · cases h
            · exact h
            · exact h
            · split at h
              · rename_i hs
                rw [if_pos hs]
                split at h
                · cases h
                · exact iha _ _ _ _ (by omega) h
              · rename_i hs
                rw [if_neg hs]
                exact h
        have := this _ _ _ _ _ (show post.length + 1 ≤ fuel by omega) c1
        simpa using this
      by_cases hemp : (post.takeWhile (isSubnet n)).isEmpty = true
      · rw [if_pos hemp] at h
        cases h
        refine ⟨e2, post.length + 1, ?_, c2, c3.trans h6⟩
        intro fuel hf
        obtain ⟨fuel, rfl⟩ : ∃ b', fuel = b' + 1 := ⟨fuel - 1, by omega⟩
        rw [nextFlat, h4]
        simp only
        rw [c1 _ (by omega)]
        simp only
        rw [if_pos hemp]
      · rw [if_neg hemp] at h
        obtain ⟨rest', r1, r2⟩ := enumAt_stack c2
        by_cases hodd : ∃ x ∈ post.takeWhile (isSubnet n), CutsOddBlock n x
        · have hst := fun fuel => cut_stuck hg' hodd fuel
          rw [hst] at h
          simp only at h
          cases h
          refine ⟨e2, post.length + 1, ?_, c2, c3.trans h6⟩
          intro fuel hf
          obtain ⟨fuel, rfl⟩ : ∃ b', fuel = b' + 1 := ⟨fuel - 1, by omega⟩
          rw [nextFlat, h4]
          simp only
          rw [c1 _ (by omega)]
          simp only
          rw [if_neg hemp, hst]
        obtain ⟨excl, s1, s2, x1, x2, x3, x4, x5, x6⟩ := cut_ok hg' (by simpa using hemp) (fun x hx ho => hodd ⟨x, hx, ho⟩) r1
        rw [x1] at h
        simp only at h
        rw [r1, x4] at h
        simp only at h
        rw [x5] at h
        simp only at h
        obtain ⟨e3, K, y1, y2, y3⟩ := ih (s2 ++ rest') l' { e2 with stack := s2 } x (r2 s2)
          (cut_good (by rw [← r1, List.takeWhile_append_dropWhile]; exact hg') x6).1 (by rw [show ({ e2 with stack := s2 } : NetEnum).filter = e2.filter from rfl, c3, h6]; exact h)
        refine ⟨e3, K + post.length + 1, ?_, y2, ?_⟩
        · intro fuel hf
          obtain ⟨fuel, rfl⟩ : ∃ b', fuel = b' + 1 := ⟨fuel - 1, by omega⟩
          rw [nextFlat, h4]
          simp only
          rw [c1 _ (by omega)]
          simp only
          rw [if_neg hemp, x1]
          simp only
          rw [x2]
          simp only
          rw [x3]
          simp only
          exact y1 fuel (by omega)
        · rw [y3]
          exact c3.trans h6
    · simp only [Bool.not_true, Bool.false_or] at h1
      rw [dropWhile_none h1] at h
      cases h
      refine ⟨e1, 1, ?_, h3, h4⟩
      intro fuel hf
      obtain ⟨fuel, rfl⟩ : ∃ b', fuel = b' + 1 := ⟨fuel - 1, by omega⟩
      rw [nextFlat, h2]

/-! ### what the list says about an address -/

/-- The most specific network of the list at `a` matches the filter and has the properties `p`. -/
def Cov (f : Filter) (l : List Network) (a : Addr) (p : CStr × BitVec 32 × BitVec 32) : Prop :=
  ∃ k, MostSpecific (· ∈ l) a k ∧ matchNetwork f k = true ∧ props k = p

theorem cov_drop {f : Filter} {pre l : List Network} (ha : Ascending (pre ++ l)) (hb : ∀ n ∈ pre ++ l, Block n)
    (hm : ∀ m ∈ pre, matchNetwork f m = false) (a : Addr) (p : CStr × BitVec 32 × BitVec 32) : Cov f (pre ++ l) a p ↔ Cov f l a p := by
  constructor
  · rintro ⟨k, ⟨h1, h2, h3⟩, h4, h5⟩
    rcases List.mem_append.mp h1 with h1 | h1
    · rw [hm k h1] at h4
      cases h4
    · exact ⟨k, ⟨h1, h2, fun m hm => h3 m (List.mem_append_right _ hm)⟩, h4, h5⟩
  · rintro ⟨k, ⟨h1, h2, h3⟩, h4, h5⟩
    refine ⟨k, ⟨List.mem_append_right _ h1, h2, ?_⟩, h4, h5⟩
    intro m hm hc
    rcases List.mem_append.mp hm with hm | hm
    · by_contra hlt
      have hbm := hb m (List.mem_append_left _ hm)
      have hbk := hb k (List.mem_append_right _ h1)
      exact not_before_of_path hbm hbk (share_path hbk hbm h2 hc (by omega)) ((List.pairwise_append.mp ha).2.2 m hm k h1)
    · exact h3 m hm hc

theorem cov_take {f : Filter} {n : Network} {rest : List Network} (hl : ∀ r ∈ rest, LeftOf n r) (hm : matchNetwork f n = true)
    (a : Addr) (p : CStr × BitVec 32 × BitVec 32) : Cov f (n :: rest) a p ↔ (Contains n a ∧ props n = p) ∨ Cov f rest a p := by
  constructor
  · rintro ⟨k, ⟨h1, h2, h3⟩, h4, h5⟩
    rcases List.mem_cons.mp h1 with rfl | h1
    · exact .inl ⟨h2, h5⟩
    · exact .inr ⟨k, ⟨h1, h2, fun m hm => h3 m (List.mem_cons_of_mem _ hm)⟩, h4, h5⟩
  · rintro (⟨h1, h2⟩ | ⟨k, ⟨h1, h2, h3⟩, h4, h5⟩)
    · refine ⟨n, ⟨by simp, h1, fun m hm hc => ?_⟩, hm, h2⟩
      rcases List.mem_cons.mp hm with rfl | hm
      · exact Nat.le_refl _
      · exact absurd ⟨h1, hc⟩ (leftOf_not_share (hl m hm) a)
    · refine ⟨k, ⟨List.mem_cons_of_mem _ h1, h2, fun m hm hc => ?_⟩, h4, h5⟩
      rcases List.mem_cons.mp hm with rfl | hm
      · exact absurd ⟨hc, h2⟩ (leftOf_not_share (hl k h1) a)
      · exact h3 m hm hc

theorem cov_cut {f : Filter} {n : Network} {subs rest excl l2 : List Network} (hg : Ahead (n :: (subs ++ rest))) (hc : Cut n subs rest excl l2)
    (hin : ∀ s ∈ subs, path n <+: path s ∧ path n ≠ path s) (hl : ∀ r ∈ rest, LeftOf n r)
    (hm : matchNetwork f n = true) (hmx : ∀ x ∈ excl, matchNetwork f x = true)
    (a : Addr) (p : CStr × BitVec 32 × BitVec 32) : Cov f (n :: (subs ++ rest)) a p ↔ Cov f l2 a p := by
  have hbn := hg.blk n (by simp)
  have hbs : ∀ s ∈ subs, Block s := fun s hs => hg.blk s (by simp [hs])
  have hlong : ∀ s ∈ subs, n.pfx < s.pfx := by
    intro s hs
    obtain ⟨h1, h2⟩ := hin s hs
    have h3 := h1.length_le
    rcases Nat.lt_or_ge n.pfx s.pfx with h | h
    · exact h
    · exact absurd (h1.eq_of_length (by rw [length_path hbn.le, length_path (hbs s hs).le] at *; omega)) h2
  have hnx : ∀ x ∈ excl, Contains x a → Contains n a := fun x hx => contains_of_path hbn (hc.block x hx) (hc.inside x hx)
  constructor
  · rintro ⟨k, ⟨h1, h2, h3⟩, h4, h5⟩
    rcases List.mem_cons.mp h1 with rfl | h1
    · obtain ⟨x, hx, hxa⟩ := hc.cover a h2 (by
        intro s hs hsa
        have := h3 s (by simp [hs]) hsa
        have := hlong s hs
        omega)
      refine ⟨x, ⟨(hc.mem x).mpr (.inr (.inr hx)), hxa, fun m hm hma => ?_⟩, hmx x hx, (hc.pr x hx).1.trans h5⟩
      rw [hc.alone x hx m hm a hxa hma]
    · have hk : k ∈ l2 := by
        rw [hc.mem]
        rcases List.mem_append.mp h1 with h | h
        · exact .inr (.inl h)
        · exact .inl h
      refine ⟨k, ⟨hk, h2, fun m hm hma => ?_⟩, h4, h5⟩
      rcases (hc.mem m).mp hm with h | h | h
      · exact h3 m (by simp [h]) hma
      · exact h3 m (by simp [h]) hma
      · rw [hc.alone m h k hk a hma h2]
  · rintro ⟨k, ⟨h1, h2, h3⟩, h4, h5⟩
    by_cases hk : k ∈ excl
    · refine ⟨n, ⟨by simp, hnx k hk h2, fun m hm hma => ?_⟩, hm, (hc.pr k hk).1.symm.trans h5⟩
      rcases List.mem_cons.mp hm with rfl | hm
      · exact Nat.le_refl _
      · exfalso
        have hm2 : m ∈ l2 := by
          rw [hc.mem]
          rcases List.mem_append.mp hm with h | h
          · exact .inr (.inl h)
          · exact .inl h
        have hmk := hc.alone k hk m hm2 a h2 hma
        subst hmk
        rcases List.mem_append.mp hm with h | h
        · exact hc.apart m hk (.inl h)
        · exact hc.apart m hk (.inr h)
    · have hk2 : k ∈ subs ∨ k ∈ rest := by
        rcases (hc.mem k).mp h1 with h | h | h
        · exact .inr h
        · exact .inl h
        · exact absurd h hk
      refine ⟨k, ⟨List.mem_cons_of_mem _ (List.mem_append.mpr hk2), h2, fun m hm hma => ?_⟩, h4, h5⟩
      rcases List.mem_cons.mp hm with rfl | hm
      · rcases hk2 with h | h
        · exact Nat.le_of_lt (hlong k h)
        · exact absurd ⟨hma, h2⟩ (leftOf_not_share (hl k h) a)
      · refine h3 m ?_ hma
        refine (hc.mem m).mpr ?_
        rcases List.mem_append.mp hm with h | h
        · exact .inr (.inl h)
        · exact .inl h

/-- A piece matches the filter as its network does. -/
theorem match_piece {f : Filter} (hf : FilterOk f) {n x : Network} (hn : Block n) (hx : Block x) (hcn : CountryOk n) (hcx : CountryOk x)
    (hp : props x = props n ∧ x.asn = n.asn ∧ x.flags = n.flags) (hv : IsV4 x.first ↔ IsV4 n.first) :
    matchNetwork f n = true ↔ matchNetwork f x = true := by
  rw [matchNetwork_iff hf hn hcn, matchNetwork_iff hf hx hcx]
  unfold Wanted
  rw [hp.1, hp.2.1, hp.2.2, hv]

/-! ### the measure -/

theorem nodup_length_lt {l m : List Network} (h : l.Nodup) (hs : ∀ i ∈ l, i ∈ m) {x : Network} (hx : x ∈ m) (hxl : x ∉ l) : l.length < m.length := by
  have key : ∀ (l m : List Network), l.Nodup → (∀ i ∈ l, i ∈ m) → l.length ≤ m.length := by
    intro l
    induction l with
    | nil => intro m _ _; simp
    | cons a l ih =>
      intro m h hs
      rw [List.nodup_cons] at h
      obtain ⟨m1, m2, rfl⟩ := List.append_of_mem (hs a (by simp))
      have := ih (m1 ++ m2) h.2 (by
        intro i hi
        have := hs i (by simp [hi])
        simp only [List.mem_append, List.mem_cons] at this ⊢
        rcases this with h' | rfl | h'
        · exact .inl h'
        · exact absurd hi h.1
        · exact .inr h')
      simp at this ⊢
      omega
  have := key (x :: l) m (List.nodup_cons.mpr ⟨hxl, h⟩) (by
    intro i hi
    rcases List.mem_cons.mp hi with rfl | hi
    · exact hx
    · exact hs i hi)
  rw [List.length_cons] at this
  omega

/-- has a strict subnet on the list -/
def isParent (l : List Network) (n : Network) : Bool := l.any fun m => isSubnet n m && !decide (SameBlock m n)

def parents (l : List Network) : Nat := (l.filter (isParent l)).length

theorem isParent_iff {l : List Network} (hb : ∀ n ∈ l, Block n) {n : Network} (hn : Block n) :
    isParent l n = true ↔ ∃ m ∈ l, path n <+: path m ∧ ¬ SameBlock m n := by
  unfold isParent
  rw [List.any_eq_true]
  constructor
  · rintro ⟨m, hm, h⟩
    rw [Bool.and_eq_true, isSubnet_iff_path hn (hb m hm)] at h
    exact ⟨m, hm, h.1, by simpa using h.2⟩
  · rintro ⟨m, hm, h1, h2⟩
    refine ⟨m, hm, ?_⟩
    rw [Bool.and_eq_true, isSubnet_iff_path hn (hb m hm)]
    exact ⟨h1, by simpa using h2⟩

theorem parents_sub {l l' : List Network} (hs : l'.Sublist l) : parents l' ≤ parents l := by
  unfold parents
  have h1 := (hs.filter (isParent l')).length_le
  refine Nat.le_trans h1 ?_
  rw [← List.countP_eq_length_filter, ← List.countP_eq_length_filter]
  refine List.countP_mono_left fun x _ h => ?_
  unfold isParent at *
  rw [List.any_eq_true] at *
  obtain ⟨m, hm, h⟩ := h
  exact ⟨m, hs.subset hm, h⟩

theorem parents_cut {n : Network} {subs rest excl l2 : List Network} (hg : Ahead (n :: (subs ++ rest))) (hc : Cut n subs rest excl l2)
    (hg2 : Ahead l2) (hin : ∀ s ∈ subs, path n <+: path s ∧ path n ≠ path s) (hne : subs ≠ []) :
    parents l2 < parents (n :: (subs ++ rest)) := by
  have hbn := hg.blk n (by simp)
  have hold : ∀ x, x ∈ rest ∨ x ∈ subs → x ∈ subs ++ rest := by
    rintro x (h | h) <;> simp [h]
  -- the parents of the new list
  have hpar : ∀ k ∈ l2, isParent l2 k = true → (k ∈ subs ++ rest) ∧ isParent (n :: (subs ++ rest)) k = true := by
    intro k hk hp
    obtain ⟨m, hm, h1, h2⟩ := (isParent_iff hg2.blk (hg2.blk k hk)).mp hp
    have hbk := hg2.blk k hk
    have hbm := hg2.blk m hm
    have h3 := contains_of_path hbk hbm h1 (first_contains hbm)
    have hke : k ∉ excl := fun h => h2 (by rw [hc.alone k h m hm _ h3 (first_contains hbm)]; exact ⟨rfl, rfl⟩)
    have hme : m ∉ excl := fun h => h2 (by rw [hc.alone m h k hk _ (first_contains hbm) h3]; exact ⟨rfl, rfl⟩)
    have hk' := (hc.mem k).mp hk
    have hm' := (hc.mem m).mp hm
    simp only [hke, hme, or_false] at hk' hm'
    refine ⟨hold k hk', (isParent_iff hg.blk hbk).mpr ⟨m, List.mem_cons_of_mem _ (hold m hm'), h1, h2⟩⟩
  unfold parents
  refine nodup_length_lt (x := n) ((asc_nodup hc.asc).filter _) ?_ ?_ ?_
  · intro k hk
    rw [List.mem_filter] at hk ⊢
    obtain ⟨h1, h2⟩ := hpar k hk.1 hk.2
    exact ⟨List.mem_cons_of_mem _ h1, h2⟩
  · rw [List.mem_filter]
    refine ⟨by simp, ?_⟩
    obtain ⟨s, hs⟩ := List.exists_mem_of_ne_nil _ hne
    refine (isParent_iff hg.blk hbn).mpr ⟨s, by simp [hs], (hin s hs).1, ?_⟩
    intro h
    exact (hin s hs).2 ((sameBlock_iff_path (hg.blk s (by simp [hs])) hbn).mp h).symm
  · intro h
    rw [List.mem_filter] at h
    exact (List.nodup_cons.mp (asc_nodup hg.asc)).1 (hpar n h.1 h.2).1

/-! ### a step -/

theorem flatL_step {f : Filter} (hf : FilterOk f) : ∀ (P : Nat) (l : List Network), Ahead l → parents l < P →
    ∃ x l', flatL f P l = .ok (x, l') ∧
      ((x = .done ∧ l' = [] ∧ ∀ a p, ¬ Cov f l a p) ∨
       (∃ n, x = .item n ∧ Block n ∧ Ahead l' ∧ (∀ r ∈ l', LeftOf n r) ∧
        (∀ a p, Cov f l a p ↔ (Contains n a ∧ props n = p) ∨ Cov f l' a p) ∧
        (parents l' < parents l ∨ (parents l' ≤ parents l ∧ l'.length < l.length)) ∧ Nested l l') ∨
       (x = .failedHeld ∧ ∃ n ∈ l, ∃ m ∈ l, StrictlyInside m n ∧ CutsOddBlock n m ∧ ∀ a p, Cov f l a p → value n.first ≤ value a)) := by
  intro P
  induction P with
  | zero => intro l _ h; omega
  | succ P ih =>
    intro l hg hP
    by_cases hall : ∀ m ∈ l, matchNetwork f m = false
    · rw [flatL, dropWhile_none hall]
      refine ⟨_, _, rfl, .inl ⟨rfl, rfl, ?_⟩⟩
      rintro a p ⟨k, hk, hm, -⟩
      rw [hall k hk.1] at hm
      cases hm
    obtain ⟨pre, n, post, rfl, hpre, hn⟩ : ∃ pre n post, l = pre ++ n :: post ∧ (∀ m ∈ pre, matchNetwork f m = false) ∧ matchNetwork f n = true := by
      clear hg hP
      induction l with
      | nil => exact absurd (by simp) hall
      | cons x l ih =>
        cases hx : matchNetwork f x with
        | true => exact ⟨[], x, l, rfl, by simp, hx⟩
        | false =>
          obtain ⟨pre, n, post, rfl, h1, h2⟩ := ih (fun h => hall (by
            intro m hm
            rcases List.mem_cons.mp hm with rfl | hm
            · exact hx
            · exact h m hm))
          refine ⟨x :: pre, n, post, rfl, ?_, h2⟩
          intro m hm
          rcases List.mem_cons.mp hm with rfl | hm
          · exact hx
          · exact h1 m hm
    have hg' : Ahead (n :: post) := hg.sub (List.sublist_append_right _ _)
    have hpar' : parents (n :: post) ≤ parents (pre ++ n :: post) := parents_sub (List.sublist_append_right _ _)
    have hin := subs_inside hg'.asc hg'.blk
    have hrl := rest_left hg'.asc hg'.blk
    have hpost := List.takeWhile_append_dropWhile (p := isSubnet n) (l := post)
    have hcov := cov_drop hg.asc hg.blk hpre
    rw [flatL, dropWhile_split hpre hn]
    simp only
    by_cases hemp : (post.takeWhile (isSubnet n)).isEmpty = true
    · rw [if_pos hemp]
      refine ⟨_, _, rfl, .inr (.inl ⟨n, rfl, hg'.blk n (by simp), ?_, hrl, ?_, ?_, ?_⟩)⟩
      · exact hg'.sub ((List.dropWhile_sublist _).trans (List.sublist_cons_self ..))
      · intro a p
        rw [hcov, ← cov_take hrl hn]
        have : post.dropWhile (isSubnet n) = post := by
          rw [List.isEmpty_iff] at hemp
          rw [hemp] at hpost
          simpa using hpost
        rw [this]
      · refine .inr ⟨Nat.le_trans (parents_sub ((List.dropWhile_sublist _).trans (List.sublist_cons_self ..))) hpar', ?_⟩
        have := (List.dropWhile_sublist (l := post) (isSubnet n)).length_le
        simp
        omega
      · intro m hm k hk _
        have hsub : ∀ x ∈ post.dropWhile (isSubnet n), x ∈ pre ++ n :: post := fun x hx => by simp [(List.dropWhile_sublist _).subset hx]
        exact ⟨hsub m hm, hsub k hk⟩
    · have hne : post.takeWhile (isSubnet n) ≠ [] := by simpa using hemp
      by_cases hodd : ∃ x ∈ post.takeWhile (isSubnet n), CutsOddBlock n x
      · rw [if_neg hemp, cut_stuck hg' hodd]
        refine ⟨_, _, rfl, .inr (.inr ⟨rfl, n, by simp, ?_⟩)⟩
        obtain ⟨x, hx, ho⟩ := hodd
        refine ⟨x, by simp [(List.takeWhile_sublist _).subset hx], (hin x hx).1, ho, ?_⟩
        intro a p hcv
        obtain ⟨k, ⟨k1, k2, -⟩, -⟩ := (hcov a p).mp hcv
        rcases List.mem_cons.mp k1 with rfl | k1
        · exact k2.1
        · have := (List.pairwise_cons.mp hg'.asc).1 k k1
          have := k2.1
          unfold Before at *
          omega
      obtain ⟨excl, s1, s2, x1, x2, x3, x4, x5, x6⟩ := cut_ok hg' (s := post.dropWhile (isSubnet n)) (rest' := []) hne
        (fun x hx ho => hodd ⟨x, hx, ho⟩) (by simp)
      rw [List.append_nil] at x6
      rw [List.append_nil] at x6
      have hg3 : Ahead (n :: (post.takeWhile (isSubnet n) ++ post.dropWhile (isSubnet n))) := by rw [hpost]; exact hg'
      obtain ⟨hg2, hnest⟩ := cut_good hg3 x6
      rw [hpost] at hnest
      have hnest' : Nested (pre ++ n :: post) s2 := fun m hm k hk hi =>
        ⟨List.mem_append_right _ (hnest m hm k hk hi).1, List.mem_append_right _ (hnest m hm k hk hi).2⟩
      have hlt := parents_cut hg3 x6 hg2 (fun s hs => (hin s hs).2) hne
      rw [hpost] at hlt
      rw [if_neg hemp, x1]
      simp only
      rw [x2]
      simp only
      rw [x3]
      simp only
      have hmx : ∀ x ∈ excl, matchNetwork f x = true := fun x hx =>
        (match_piece hf (hg'.blk n (by simp)) (x6.block x hx) (hg'.cok n (by simp)) (x6.cok x hx) (x6.pr x hx) (x6.fam x hx)).mp hn
      obtain ⟨x, l', y1, y2⟩ := ih s2 hg2 (by omega)
      have hcc : ∀ a p, Cov f (pre ++ n :: post) a p ↔ Cov f s2 a p := by
        intro a p
        rw [hcov, ← cov_cut hg3 x6 (fun s hs => (hin s hs).2) hrl hn hmx, hpost]
      refine ⟨x, l', y1, ?_⟩
      rcases y2 with ⟨z1, z2, z3⟩ | ⟨m, z1, z2, z3, z5, z6, z7, z8⟩ | ⟨z1, m, hm, k, hk, z2, z3, z4⟩
      · exact .inl ⟨z1, z2, fun a p h => z3 a p ((hcc a p).mp h)⟩
      · refine .inr (.inl ⟨m, z1, z2, z3, z5, fun a p => (hcc a p).trans (z6 a p), .inl (by omega), ?_⟩)
        intro i hi j hj hij
        obtain ⟨w1, w2⟩ := z8 i hi j hj hij
        exact hnest' i w1 j w2 hij
      · obtain ⟨w1, w2⟩ := hnest' k hk m hm z2
        exact .inr (.inr ⟨z1, m, w2, k, w1, z2, z3, fun a p h => z4 a p ((hcc a p).mp h)⟩)

/-! ### all steps -/

/-- What draining gives: the end, or an error in front of a network that has to be cut impossibly. -/
structure FlatOut (db : Db) (f : Filter) (l : List Network) (R : List Network) (ended : Bool) (e : NetEnum) : Prop where
  left : R.Pairwise LeftOf
  blk : ∀ n ∈ R, Block n
  sound : ∀ a p, (∃ n ∈ R, Contains n a ∧ props n = p) → Cov f l a p
  whole : ended = true → EnumAt db e [] ∧ ∀ a p, Cov f l a p → ∃ n ∈ R, Contains n a ∧ props n = p
  stuck : ended = false → ∃ n ∈ l, ∃ m ∈ l, StrictlyInside m n ∧ CutsOddBlock n m ∧
    ∀ a p, Cov f l a p → value a < value n.first → ∃ n ∈ R, Contains n a ∧ props n = p

theorem drain_flat {db : Db} {f : Filter} (hf : FilterOk f) : ∀ (P N : Nat) (l : List Network) (e : NetEnum), EnumAt db e l → Ahead l → e.filter = f →
    parents l ≤ P → l.length ≤ N →
    ∃ R b e' K, (∀ f0 fuel, K ≤ f0 → K ≤ fuel → drain (nextFlat db f0) fuel e = .ok (R, b, e')) ∧ FlatOut db f l R b e' := by
  intro P
  induction P using Nat.strong_induction_on with
  | _ P ihP =>
    intro N
    induction N using Nat.strong_induction_on with
    | _ N ihN =>
      intro l e he hg hef hP hN
      obtain ⟨x, l', h1, h2⟩ := flatL_step hf (parents l + 1) l hg (by omega)
      rw [← hef] at h1
      obtain ⟨e1, K, k1, k2, k3⟩ := flat_sim _ l l' e x he hg h1
      rcases h2 with ⟨rfl, rfl, h4⟩ | ⟨n, rfl, h4, h5, h6, h7, h8, h9⟩ | ⟨rfl, n, hn, m, hm, h4, h5, h6⟩
      · refine ⟨[], true, e1, K + 1, ?_, List.Pairwise.nil, by simp, ?_, ?_, ?_⟩
        · intro f0 fuel hf0 hfu
          obtain ⟨fuel, rfl⟩ : ∃ b', fuel = b' + 1 := ⟨fuel - 1, by omega⟩
          rw [drain, k1 f0 (by omega)]
        · rintro a p ⟨n, hn, _⟩
          simp at hn
        · exact fun _ => ⟨k2, fun a p h => absurd h (h4 a p)⟩
        · intro h; cases h
      · obtain ⟨R, b, e2, K2, r1, r2⟩ : ∃ R b e' K, (∀ f0 fuel, K ≤ f0 → K ≤ fuel → drain (nextFlat db f0) fuel e1 = .ok (R, b, e')) ∧
            FlatOut db f l' R b e' := by
          rcases h8 with h8 | ⟨h8, h9⟩
          · exact ihP (parents l') (by omega) l'.length l' e1 k2 h5 (k3.trans hef) (Nat.le_refl _) (Nat.le_refl _)
          · exact ihN l'.length (by omega) l' e1 k2 h5 (k3.trans hef) (by omega) (Nat.le_refl _)
        refine ⟨n :: R, b, e2, K + K2 + 1, ?_, List.pairwise_cons.mpr ⟨?_, r2.left⟩, ?_, ?_, ?_, ?_⟩
        · intro f0 fuel hf0 hfu
          obtain ⟨fuel, rfl⟩ : ∃ b', fuel = b' + 1 := ⟨fuel - 1, by omega⟩
          rw [drain, k1 f0 (by omega)]
          simp only
          rw [r1 f0 fuel (by omega) (by omega)]
        · intro r hr
          obtain ⟨k, hk, -⟩ := r2.sound r.first (props r) ⟨r, hr, first_contains (r2.blk r hr), rfl⟩
          have := h6 k hk.1
          have := hk.2.1
          unfold LeftOf Contains at *
          omega
        · intro m hm
          rcases List.mem_cons.mp hm with rfl | hm
          · exact h4
          · exact r2.blk m hm
        · rintro a p ⟨m, hm, hc⟩
          rw [h7]
          rcases List.mem_cons.mp hm with rfl | hm
          · exact .inl hc
          · exact .inr (r2.sound a p ⟨m, hm, hc⟩)
        · intro hb
          refine ⟨(r2.whole hb).1, fun a p hc => ?_⟩
          rcases (h7 a p).mp hc with hc | hc
          · exact ⟨n, by simp, hc⟩
          · obtain ⟨m, hm, hc⟩ := (r2.whole hb).2 a p hc
            exact ⟨m, by simp [hm], hc⟩
        · intro hb
          obtain ⟨i, hi, j, hj, q1, q2, q3⟩ := r2.stuck hb
          obtain ⟨w1, w2⟩ := h9 j hj i hi q1
          refine ⟨i, w2, j, w1, q1, q2, fun a p hc hlt => ?_⟩
          rcases (h7 a p).mp hc with hc | hc
          · exact ⟨n, by simp, hc⟩
          · obtain ⟨m, hm, hc⟩ := q3 a p hc hlt
            exact ⟨m, by simp [hm], hc⟩
      · refine ⟨[], false, e1, K + 1, ?_, List.Pairwise.nil, by simp, ?_, ?_, ?_⟩
        · intro f0 fuel hf0 hfu
          obtain ⟨fuel, rfl⟩ : ∃ b', fuel = b' + 1 := ⟨fuel - 1, by omega⟩
          rw [drain, k1 f0 (by omega)]
        · rintro a p ⟨n, hn, _⟩
          simp at hn
        · intro h; cases h
        · refine fun _ => ⟨n, hn, m, hm, h4, h5, fun a p hc hlt => ?_⟩
          have := h6 a p hc
          omega

/-- After the end nothing follows. -/
theorem flat_done {db : Db} {e : NetEnum} (h : EnumAt db e []) : ∃ e', ∀ fuel, nextFlat db (fuel + 1) e = .ok (.done, e') := by
  rcases next_enumAt h true with ⟨pre, n, post, e1, h1, -⟩ | ⟨e1, h1, h2, -⟩
  · exact absurd (congrArg List.length h1) (by simp)
  · exact ⟨e1, fun fuel => by rw [nextFlat, h2]⟩

/-- If the first matching network cannot be cut, an error is returned. -/
theorem flat_fails {db : Db} {e : NetEnum} {n : Network} {post : List Network} {err : Nat} (h : EnumAt db e (n :: post)) (hm : matchNetwork e.filter n = true)
    (ha : Ascending (n :: post)) (hne : post.takeWhile (isSubnet n) ≠ [])
    (hx : excludeList (128 * (post.takeWhile (isSubnet n)).length + 1) n (post.takeWhile (isSubnet n)) = .error (.err err)) :
    ∀ fuel, post.length < fuel → ∃ e', nextFlat db fuel e = .ok (.failedHeld, e') := by
  intro fuel hf
  obtain ⟨fuel, rfl⟩ : ∃ b', fuel = b' + 1 := ⟨fuel - 1, by omega⟩
  rcases next_enumAt h true with ⟨pre, m, post', e1, h1, h2, h3, h4, h5, h6, -⟩ | ⟨e1, h1, -⟩
  · cases pre with
    | cons k pre =>
      have := h2 k (by simp)
      rw [List.cons_append, List.cons.injEq] at h1
      rw [← h1.1, hm] at this
      cases this
    | nil =>
      rw [List.nil_append, List.cons.injEq] at h1
      obtain ⟨rfl, rfl⟩ := h1
      obtain ⟨e2, c1, -⟩ := collect_spec (n := n) (fuel + 1) post e1 [] h5 (List.pairwise_cons.mp ha).2 hf
      rw [nextFlat, h4]
      simp only
      rw [c1]
      simp only [List.nil_append]
      rw [if_neg (by simpa using hne), hx]
      exact ⟨_, rfl⟩
  · have := h1 n (by simp)
    rw [hm] at this
    cases this

end Loc
