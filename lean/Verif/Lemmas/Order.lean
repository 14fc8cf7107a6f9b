import Verif.Lemmas.Writer
import Verif.Lemmas.Exclude
/-
Additions in a different order lead to the same tree and to a permutation of the same list of ASes.
-/
namespace Loc
open Spec

/-- The tree after an addition. -/
def ins (n : Network) : List Bool → Tree → Tree
  | _, .nil => .nil
  | [], .node d none z o => .node d (some n) z o
  | [], .node d (some m) z o => .node d (some m) z o
  | false :: p, .node d net z o => .node d net (ins n p (getNode z)) o
  | true :: p, .node d net z o => .node d net z (ins n p (getNode o))

theorem atPath_ins (n : Network) : ∀ (p : List Bool) (t : Tree), t ≠ .nil → ∃ r, atPath (setNode n) t p = .ok (r, ins n p t) := by
  intro p
  induction p with
  | nil =>
    intro t ht
    cases t with
    | nil => exact absurd rfl ht
    | node d net z o => cases net <;> exact ⟨_, rfl⟩
  | cons b p ih =>
    intro t ht
    cases t with
    | nil => exact absurd rfl ht
    | node d net z o =>
      have hg : ∀ t : Tree, getNode t ≠ .nil := by
        intro t
        cases t with
        | nil => simp [getNode, Tree.fresh]
        | node d _ _ _ => cases d <;> simp [getNode]
      cases b
      · obtain ⟨r, hr⟩ := ih (getNode z) (hg z)
        exact ⟨r, by rw [atPath, hr, ins]⟩
      · obtain ⟨r, hr⟩ := ih (getNode o) (hg o)
        exact ⟨r, by rw [atPath, hr, ins]⟩

theorem getNode_ins (n : Network) (p : List Bool) (t : Tree) : getNode (ins n p (getNode t)) = ins n p (getNode t) := by
  have h : ∀ net z o, ∃ net' z' o', ins n p (.node false net z o) = .node false net' z' o' := by
    intro net z o
    cases p with
    | nil => cases net <;> exact ⟨_, _, _, rfl⟩
    | cons b p => cases b <;> (rw [ins]; exact ⟨_, _, _, rfl⟩)
  have h2 : ∃ net z o, getNode t = .node false net z o := by
    cases t with
    | nil => exact ⟨_, _, _, rfl⟩
    | node d net z o => cases d <;> exact ⟨_, _, _, rfl⟩
  obtain ⟨net, z, o, e⟩ := h2
  rw [e]
  obtain ⟨net', z', o', e'⟩ := h net z o
  rw [e']
  rfl

theorem ins_comm (m n : Network) : ∀ (p q : List Bool), p ≠ q → ∀ t, ins n q (ins m p t) = ins m p (ins n q t) := by
  intro p
  induction p with
  | nil =>
    intro q hq t
    cases q with
    | nil => exact absurd rfl hq
    | cons b q =>
      cases t with
      | nil => rfl
      | node d net z o => cases b <;> cases net <;> rfl
  | cons b p ih =>
    intro q hq t
    cases t with
    | nil => simp only [ins]
    | node d net z o =>
      cases q with
      | nil => cases b <;> cases net <;> rfl
      | cons c q =>
        cases b <;> cases c
        · simp only [ins, getNode_ins]
          rw [ih q (fun h => hq (by rw [h]))]
        · simp only [ins]
        · simp only [ins]
        · simp only [ins, getNode_ins]
          rw [ih q (fun h => hq (by rw [h]))]

theorem ins_ne_nil (n : Network) (p : List Bool) (t : Tree) (h : t ≠ .nil) : ins n p t ≠ .nil := by
  cases t with
  | nil => exact absurd rfl h
  | node d net z o =>
    cases p with
    | nil => cases net <;> simp [ins]
    | cons b p => cases b <;> simp [ins]

/-- The same writer, except for the order of the list of ASes. -/
structure SameW {K : Type} (w v : Writer K) : Prop where
  eq : v = { w with ases := v.ases }
  perm : w.ases.Perm v.ases
  nodup : (w.ases.map (·.number)).Nodup

/-- Both failed in the same way, or the results are related. -/
def RelR {α : Type} (R : α → α → Prop) : Res α → Res α → Prop
  | .ok a, .ok b => R a b
  | .error x, .error y => x = y
  | _, _ => False

theorem SameW.rfl {K : Type} {w : Writer K} (h : (w.ases.map (·.number)).Nodup) : SameW w w := ⟨by rw [], .refl _, h⟩

theorem SameW.trans {K : Type} {u v w : Writer K} (h1 : SameW u v) (h2 : SameW v w) : SameW u w := by
  refine ⟨?_, h1.perm.trans h2.perm, h1.nodup⟩
  have e := h2.eq
  rw [h1.eq] at e
  exact e

theorem relR_trans {K : Type} {a b c : Res (Writer K)} (h1 : RelR SameW a b) (h2 : RelR SameW b c) : RelR SameW a c := by
  cases a <;> cases b <;> cases c <;> simp only [RelR] at *
  · exact h1.trans h2
  · exact h1.trans h2

theorem contains_perm {l k : List AS} (h : l.Perm k) (n : BitVec 32) : asListContains l n = asListContains k n := by
  unfold asListContains
  rw [Bool.eq_iff_iff, List.any_eq_true, List.any_eq_true]
  constructor
  · rintro ⟨x, hx, hn⟩
    exact ⟨x, h.mem_iff.mp hx, hn⟩
  · rintro ⟨x, hx, hn⟩
    exact ⟨x, h.mem_iff.mpr hx, hn⟩

theorem append_perm {l k : List AS} (h : l.Perm k) (a : AS) : (asListAppend l a).Perm (asListAppend k a) := by
  unfold asListAppend
  rw [contains_perm h]
  split
  · exact h
  · exact h.append_right [a]

theorem append_nodup {l : List AS} (h : (l.map (·.number)).Nodup) (a : AS) : ((asListAppend l a).map (·.number)).Nodup := by
  unfold asListAppend
  split
  · exact h
  · rename_i hc
    rw [List.map_append, List.nodup_append]
    refine ⟨h, by simp, ?_⟩
    intro x hx y hy hxy
    simp only [List.map_cons, List.map_nil, List.mem_singleton] at hy
    subst hxy
    obtain ⟨z, hz, rfl⟩ := List.mem_map.mp hx
    apply hc
    unfold asListContains
    rw [List.any_eq_true]
    exact ⟨z, hz, by simp [hy]⟩

theorem append_comm (l : List AS) {a b : AS} (h : a.number ≠ b.number) :
    (asListAppend (asListAppend l a) b).Perm (asListAppend (asListAppend l b) a) := by
  have hc : ∀ (l : List AS) (x y : AS), x.number ≠ y.number → asListContains (l ++ [x]) y.number = asListContains l y.number := by
    intro l x y hxy
    unfold asListContains
    rw [List.any_append]
    simp [hxy]
  unfold asListAppend
  by_cases h1 : asListContains l a.number = true
  · rw [if_pos h1]
    by_cases h2 : asListContains l b.number = true
    · rw [if_pos h2, if_pos h1]
    · rw [if_neg h2, hc l b a (fun e => h e.symm), if_pos h1]
  · rw [if_neg h1]
    by_cases h2 : asListContains l b.number = true
    · rw [hc l a b h, if_pos h2, if_pos h2, if_neg h1]
    · rw [hc l a b h, if_neg h2, if_neg h2, hc l b a (fun e => h e.symm), if_neg h1]
      rw [List.append_assoc, List.append_assoc]
      exact (List.Perm.swap b a []).append_left l

theorem sort_eq {l k : List AS} (h : l.Perm k) (hn : (l.map (·.number)).Nodup) : asListSort l = asListSort k := by
  have hk : (k.map (·.number)).Nodup := (h.map _).nodup_iff.mp hn
  have s1 := asListSort_sorted hn
  have s2 := asListSort_sorted hk
  refine List.Perm.eq_of_pairwise ?_ s1 s2 (((asListSort_perm l).trans h).trans (asListSort_perm k).symm)
  intro a b _ _ hab hba
  rw [BitVec.lt_def] at hab hba
  omega

/-- Additions commute. -/
theorem wrun_swap {K : Type} {ctz0 : Nat} {w : Writer K} (hw : (w.ases.map (·.number)).Nodup) {a b : WOp K} (ha : IsAddition a = true) (hb : IsAddition b = true)
    (h0 : 8 ≤ ctz0) (oa : OpOk ctz0 a) (ob : OpOk ctz0 b) (hd : Different a b) : RelR SameW (wrun w [a, b]) (wrun w [b, a]) := by
  cases a <;> simp only [IsAddition, Bool.false_eq_true] at ha <;> cases b <;> simp only [IsAddition, Bool.false_eq_true] at hb
  · rename_i k s k' s'
    simp only [wrun, wstep, addAs, RelR]
    exact ⟨rfl, append_comm _ hd, append_nodup (append_nodup hw _) _⟩
  · rename_i k s n
    simp only [wrun, wstep, addAs, addNetwork]
    cases treeAdd w.networks n with
    | error e => rfl
    | ok r => exact ⟨rfl, .refl _, append_nodup hw _⟩
  · rename_i n k s
    simp only [wrun, wstep, addAs, addNetwork]
    cases treeAdd w.networks n with
    | error e => rfl
    | ok r => exact ⟨rfl, .refl _, append_nodup hw _⟩
  · rename_i m n
    have hne : netBits m ≠ netBits n := by
      have bm := (Props.built_ok ctz0 h0 oa).1
      have bn := (Props.built_ok ctz0 h0 ob).1
      rw [netBits_eq bm, netBits_eq bn]
      intro h
      exact hd (netCmp_zero.mp ((netCmp_eq_path bm bn).mpr h))
    simp only [wrun, wstep, addNetwork, treeAdd]
    by_cases ht : w.networks = .nil
    · have hnil : ∀ (k : Network) p, atPath (setNode k) .nil p = .error .oob := by
        intro k p
        rw [atPath]
      rw [ht, hnil, hnil]
      rfl
    · obtain ⟨r1, e1⟩ := atPath_ins m (netBits m) _ ht
      obtain ⟨r2, e2⟩ := atPath_ins n (netBits n) _ ht
      obtain ⟨r3, e3⟩ := atPath_ins n (netBits n) _ (ins_ne_nil m (netBits m) _ ht)
      obtain ⟨r4, e4⟩ := atPath_ins m (netBits m) _ (ins_ne_nil n (netBits n) _ ht)
      simp only [e1, e2, e3, e4, RelR]
      refine ⟨?_, .refl _, hw⟩
      rw [ins_comm m n _ _ hne]

theorem writeSections_same {K : Type} (e : WEnv K) {w v : Writer K} (h : SameW w v) : writeSections e w = writeSections e v := by
  rw [h.eq]
  unfold writeSections
  simp only
  rw [sort_eq h.perm h.nodup]

/-- Any call preserves the relation. -/
theorem wstep_same {K : Type} {w v : Writer K} (h : SameW w v) (op : WOp K) : RelR SameW (wstep w op) (wstep v op) := by
  have hv := h.eq
  obtain ⟨-, hp, hn⟩ := h
  generalize hva : v.ases = va at hv hp
  subst hv
  cases op with
  | vendor s =>
    cases s with
    | none => exact ⟨rfl, hp, hn⟩
    | some s =>
      simp only [wstep, setVendor]
      cases poolAdd w.pool s with
      | error x => cases x <;> first | exact ⟨rfl, hp, hn⟩ | rfl
      | ok r => exact ⟨rfl, hp, hn⟩
  | description s =>
    cases s with
    | none => exact ⟨rfl, hp, hn⟩
    | some s =>
      simp only [wstep, setDescription]
      cases poolAdd w.pool s with
      | error x => cases x <;> first | exact ⟨rfl, hp, hn⟩ | rfl
      | ok r => exact ⟨rfl, hp, hn⟩
  | license s =>
    cases s with
    | none => exact ⟨rfl, hp, hn⟩
    | some s =>
      simp only [wstep, setLicense]
      cases poolAdd w.pool s with
      | error x => cases x <;> first | exact ⟨rfl, hp, hn⟩ | rfl
      | ok r => exact ⟨rfl, hp, hn⟩
  | addAs k s =>
    simp only [wstep, addAs, RelR]
    exact ⟨rfl, append_perm hp _, append_nodup hn _⟩
  | renameAs k s =>
    simp only [wstep, renameAs, RelR]
    refine ⟨rfl, hp.map _, ?_⟩
    rw [List.map_map]
    refine (?_ : List.map _ _ = _) ▸ hn
    apply List.map_congr_left
    intro a _
    simp only [Function.comp]
    split <;> rfl
  | addCountry c k s =>
    simp only [wstep, addCountry]
    cases countryNew c with
    | error x => cases x <;> first | exact ⟨rfl, hp, hn⟩ | rfl
    | ok r => exact ⟨rfl, hp, hn⟩
  | addNetwork n =>
    simp only [wstep, addNetwork]
    cases treeAdd w.networks n with
    | error x => rfl
    | ok r => exact ⟨rfl, hp, hn⟩
  | changeNetwork n m =>
    simp only [wstep, RelR]
    exact ⟨rfl, hp, hn⟩
  | write e old version =>
    have hs := writeSections_same e (w := w) (v := { w with ases := va }) ⟨rfl, hp, hn⟩
    simp only [wstep, writerWrite]
    cases writeVersion version with
    | error x => exact ⟨rfl, hp, hn⟩
    | ok x =>
      simp only
      rw [← hs]
      cases hw : writeSections e w with
      | error x => rfl
      | ok r =>
        obtain ⟨s, w'⟩ := r
        have hn' : (w'.ases.map (·.number)).Nodup := by
          have h3 : w'.ases = asListSort w.ases := by
            unfold writeSections at hw
            simp only at hw
            split at hw
            · cases hw
            · split at hw
              · cases hw
              · split at hw
                · cases hw
                · split at hw
                  · cases hw
                  · simp only [Except.ok.injEq, Prod.mk.injEq] at hw
                    rw [← hw.2]
          rw [h3]
          exact ((asListSort_perm w.ases).map _).nodup_iff.mpr hn
        simp only
        cases signWith e.sign w'.key1 _ w'.sig1 w'.sig1Len with
        | error x => exact SameW.rfl hn'
        | ok r1 =>
          simp only
          cases signWith e.sign w'.key2 _ w'.sig2 w'.sig2Len with
          | error x => exact SameW.rfl hn'
          | ok r2 => exact SameW.rfl hn'

theorem wrun_same {K : Type} : ∀ (ops : List (WOp K)) {w v : Writer K}, SameW w v → RelR SameW (wrun w ops) (wrun v ops) := by
  intro ops
  induction ops with
  | nil => intro w v h; exact h
  | cons op ops ih =>
    intro w v h
    have hs := wstep_same h op
    rw [wrun, wrun]
    cases h1 : wstep w op <;> cases h2 : wstep v op <;> rw [h1, h2] at hs <;> simp only [RelR] at hs ⊢
    · exact hs
    · exact ih hs

theorem wrun_append {K : Type} : ∀ (a b : List (WOp K)) (w : Writer K), wrun w (a ++ b) = match wrun w a with
    | .error e => .error e
    | .ok w => wrun w b := by
  intro a
  induction a with
  | nil => intro b w; rfl
  | cons x a ih =>
    intro b w
    rw [List.cons_append, wrun, wrun]
    cases wstep w x with
    | error e => rfl
    | ok w => exact ih b w

theorem wrun_perm {K : Type} {ctz0 : Nat} (h0 : 8 ≤ ctz0) {l k : List (WOp K)} (hp : l.Perm k) : (∀ op ∈ l, IsAddition op = true ∧ OpOk ctz0 op) → l.Pairwise Different →
    ∀ {w v : Writer K}, SameW w v → RelR SameW (wrun w l) (wrun v k) := by
  have hsym : ∀ {a b : WOp K}, Different a b → Different b a := by
    intro a b h
    cases a <;> cases b <;> simp only [Different] at h ⊢
    · exact fun e => h e.symm
    · exact fun e => h ⟨e.1.symm, e.2.symm⟩
  induction hp with
  | nil => intro _ _ w v h; exact h
  | @cons x l k hp ih =>
    intro ho hd w v h
    have hs := wstep_same h x
    rw [wrun, wrun]
    cases h1 : wstep w x <;> cases h2 : wstep v x <;> rw [h1, h2] at hs <;> simp only [RelR] at hs ⊢
    · exact hs
    · exact ih (fun op hop => ho op (by simp [hop])) (List.pairwise_cons.mp hd).2 hs
  | swap x y l =>
    intro ho hd w v h
    have h1 := (ho y (by simp))
    have h2 := (ho x (by simp))
    have hd' : Different y x := (List.pairwise_cons.mp hd).1 x (by simp)
    have hs := wrun_swap h.nodup h1.1 h2.1 h0 h1.2 h2.2 hd'
    have hs2 := wrun_same [x, y] h
    have hs3 := relR_trans hs hs2
    rw [show y :: x :: l = [y, x] ++ l from rfl, show x :: y :: l = [x, y] ++ l from rfl, wrun_append, wrun_append]
    cases e1 : wrun w [y, x] <;> cases e2 : wrun v [x, y] <;> rw [e1, e2] at hs3 <;> simp only [RelR] at hs3 ⊢
    · exact hs3
    · exact wrun_same l hs3
  | @trans l₁ l₂ l₃ p1 p2 ih1 ih2 =>
    intro ho hd w v h
    have a1 := ih1 ho hd (w := w) (v := w) (SameW.rfl h.nodup)
    have a2 := ih2 (fun op hop => ho op (p1.mem_iff.mpr hop)) ((p1.pairwise_iff hsym).mp hd) h
    exact relR_trans a1 a2

end Loc
