import Verif.Lemmas.TreeMerge
import Verif.Lemmas.Odd
/-
What merging leaves behind: halves that could be joined are joined, unless their union was taken.
-/
namespace Loc
open Spec

/-! ### the order in which nodes are visited -/

/-- `u` is visited before `v`. -/
def pre : List Bool → List Bool → Bool
  | [], [] => false
  | [], _ :: _ => true
  | _ :: _, [] => false
  | a :: u, b :: v => if a = b then pre u v else (!a && b)

theorem pre_false (u q : List Bool) : pre u (q ++ [false]) = true ↔ pre u q = true ∨ u = q := by
  induction q generalizing u with
  | nil =>
    cases u with
    | nil => simp [pre]
    | cons a u => cases a <;> cases u <;> simp [pre]
  | cons b q ih =>
    cases u with
    | nil => simp [pre]
    | cons a u =>
      have := ih u
      cases a <;> cases b <;> simp [pre, this]

theorem pre_true (u q : List Bool) :
    pre u (q ++ [true]) = true ↔ pre u (q ++ [false]) = true ∨ q ++ [false] <+: u := by
  induction q generalizing u with
  | nil =>
    cases u with
    | nil => simp [pre]
    | cons a u => cases a <;> cases u <;> simp [pre]
  | cons b q ih =>
    cases u with
    | nil => simp [pre]
    | cons a u =>
      have := ih u
      cases a <;> cases b <;> simp [pre, this]

theorem pre_sub (u q : List Bool) :
    (pre u (q ++ [true]) = true ∨ q ++ [true] <+: u) ↔ (pre u q = true ∨ q <+: u) := by
  induction q generalizing u with
  | nil =>
    cases u with
    | nil => simp [pre]
    | cons a u => cases a <;> cases u <;> simp [pre]
  | cons b q ih =>
    cases u with
    | nil => simp [pre]
    | cons a u =>
      have := ih u
      cases a <;> cases b <;> simp [pre, this]

theorem pre_prefix {u q : List Bool} (h : u <+: q) : pre u q = true ∨ u = q := by
  induction q generalizing u with
  | nil => right; simpa using h
  | cons b q ih =>
    cases u with
    | nil => left; rfl
    | cons a u =>
      rw [List.cons_prefix_cons] at h
      obtain ⟨rfl, h⟩ := h
      rcases ih h with h' | h'
      · left; simpa [pre] using h'
      · right; rw [h']

theorem pre_upper {u q : List Bool} (h : u ++ [false] <+: q) : ¬ (pre (u ++ [true]) q = true ∨ u ++ [true] = q) := by
  induction u generalizing q with
  | nil =>
    obtain ⟨t, rfl⟩ := h
    simp [pre]
  | cons a u ih =>
    cases q with
    | nil => simp at h
    | cons b q =>
      rw [List.cons_append, List.cons_prefix_cons] at h
      obtain ⟨rfl, h⟩ := h
      have := ih h
      simpa [pre] using this

/-- strictly on the way to the IPv4 range -/
def Around (u : List Bool) : Prop := u <+: v4path ∧ u ≠ v4path

/-- The halves below which `q` lies. -/
def OnWay (q u : List Bool) : Prop := ∃ b, u ++ [b] <+: q

/-- What holds while merging: `T0` is the tree at the start, `S` the nodes visited, `P` the nodes whose
    lower half must be in the list if it is a network, `E` an exception to both. -/
structure Join (T0 : PathMap) (S P E : List Bool → Prop) (c : TreeCtx) : Prop where
  inv : MInv c
  out : ∀ u, Around u → look c.tree u = none
  a1 : ∀ w n0 n1, look c.tree (w ++ [false]) = some n0 → look c.tree (w ++ [true]) = some n1 →
    ¬ unsplittable w → SameRaw n0 n1 → S (w ++ [true]) → ¬ E (w ++ [true]) → T0 w ≠ none
  a2 : ∀ u n, look c.tree (u ++ [false]) = some n → P u → ¬ Around u → ¬ E (u ++ [false]) → n ∈ c.list
  a3 : ∀ w n, look c.tree w = some n → T0 w = none → look c.tree (w ++ [false]) = none ∧ S (w ++ [true])

theorem Join.change {T0 : PathMap} {S P E S' P' E' : List Bool → Prop} {c : TreeCtx} (h : Join T0 S P E c)
    (hS : ∀ u, S u → S' u) (hS' : ∀ u, S' u → ¬ E' u → look c.tree u ≠ none → S u ∧ ¬ E u)
    (hP : ∀ u, P' u → ¬ E' (u ++ [false]) → look c.tree (u ++ [false]) ≠ none → P u ∧ ¬ E (u ++ [false])) :
    Join T0 S' P' E' c := by
  refine ⟨h.inv, h.out, ?_, ?_, ?_⟩
  · intro w n0 n1 h0 h1 hu hr hs he
    obtain ⟨a, b⟩ := hS' _ hs he (by rw [h1]; simp)
    exact h.a1 w n0 n1 h0 h1 hu hr a b
  · intro u n hn hp ha he
    obtain ⟨a, b⟩ := hP u hp he (by rw [hn]; simp)
    exact h.a2 u n hn a ha b
  · intro w n hn ht
    exact ⟨(h.a3 w n hn ht).1, hS _ (h.a3 w n hn ht).2⟩

/-! ### one step -/

theorem before_halves {w : List Bool} {n x : Network} (hn : Block n) (hx : Block x)
    (h0 : path n = w ++ [false]) (h1 : path x = w ++ [true]) : Before n x :=
  LeftOf.before hn (before_of_diverge hn hx (w := w) (by rw [h0]; exact List.prefix_refl _)
    (by rw [h1]; exact List.prefix_refl _))

theorem mergeLoop_cases (ctz0 : Nat) (h0 : 8 ≤ ctz0) (step : Network → TreeCtx → Res TreeCtx) (x : Network) :
    ∀ (i : Nat) (c : TreeCtx), MInv c → look c.tree (path x) = some x → i ≤ c.list.length →
    ∀ out, mergeLoop ctz0 step x i c = .ok out →
    (∃ l, out = .exhausted ⟨c.tree, l⟩ ∧ (∀ e ∈ c.list, e ∈ l) ∧ MInv ⟨c.tree, l⟩ ∧
      (0 < i → ∀ u, path x = u ++ [false] → x ∈ l) ∧
      ∀ j, j < i → ∀ n, c.list[j]? = some n → Before n x → ¬ ∃ w, Halves w n x ∧ SameRaw n x) ∨
    (∃ l n w m, (∀ e ∈ c.list, e ∈ l) ∧ n ∈ l ∧ Halves w n x ∧ path m = w ∧ Block m ∧ look c.tree (path n) = some n ∧
      ((∃ t, out = .busy ⟨t, l⟩ ∧ look t = look c.tree ∧ look c.tree w ≠ none ∧ MInv ⟨t, l⟩) ∨
       (∃ t3 l2 c3, out = .merged c3 ∧ step m ⟨t3, l2⟩ = .ok c3 ∧ MInv ⟨t3, l2⟩ ∧
          (∀ u, look t3 u = if u = w then some m else
            if u = w ++ [false] ∨ u = w ++ [true] then none else look c.tree u) ∧
          (∀ e ∈ l, ¬ SameBlock n e → e ∈ l2)))) := by
  intro i
  induction i with
  | zero =>
    intro c h hx _ out ho
    cases ho
    exact .inl ⟨c.list, rfl, fun e he => he, h, by simp, by simp⟩
  | succ i ih =>
    intro c h hx hi out ho
    have hlt : i < c.list.length := hi
    unfold mergeLoop at ho
    have hget := List.getElem?_eq_getElem hlt
    rw [hget] at ho
    have hn : c.list[i] ∈ c.list := List.getElem_mem hlt
    generalize c.list[i] = n at hn ho hget
    have hbn := h.blk n hn
    have hbx := (look_block h.wf hx).1
    rcases mergeNetworks_spec ctz0 h0 hbn hbx with ⟨w, m, hh, hraw, hm, hbm, hpm, hrm⟩ | ⟨hno, hm⟩
    · right
      simp only [hm] at ho
      obtain ⟨r, t1, hadd, hcase⟩ := merge_update h hn hx hh hraw hbm hpm hrm
      simp only [hadd] at ho
      have hln : look c.tree (path n) = some n := by
        rcases h.mem n hn with h' | ⟨v, h'⟩
        · exact h'
        · rw [hh.1] at h'
          have := (List.append_inj' h' rfl).2
          simp at this
      refine ⟨c.list, n, w, m, fun e he => he, hn, hh, hpm, hbm, hln, ?_⟩
      rcases hcase with ⟨hr, hrel, hlk⟩ | ⟨hr, t2, t3, l1, l2, d1, d2, d3, d4, hrel, hlm, hlk, hmem⟩
      · rw [if_pos hr] at ho
        cases ho
        refine .inl ⟨t1, rfl, funext hlk, ?_, hrel.inv⟩
        obtain ⟨t1', w1, e1, had⟩ := treeAdd_spec h.wf hbm
        rw [hpm] at had
        rcases had with ⟨hnone, had, -⟩ | ⟨m', hsome, -, -⟩
        · rw [hadd, hr] at had
          cases had
        · rw [hsome]; simp
      · rw [if_neg hr] at ho
        simp only [bind, Except.bind, d1, d2, d3, d4, pure, Except.pure] at ho
        cases hs : step m ⟨t3, l2⟩ with
        | error e => rw [hs] at ho; cases ho
        | ok c3 =>
          rw [hs] at ho
          cases ho
          exact .inr ⟨t3, l2, c3, rfl, hs, hrel.inv, hlk, fun e he hne => (hmem e).mpr ⟨.inl he, hne⟩⟩
    · simp only [hm] at ho
      obtain ⟨l, g1, g2, g3⟩ := h.push hx
      simp only [g1] at ho
      obtain ⟨l', p1, -, p3⟩ := listPush_mem c.list x h.asc
      rw [g1] at p1
      cases p1
      have hsub : ∀ e ∈ c.list, e ∈ l := fun e he => (p3 e).mpr (.inl he)
      rcases ih ⟨c.tree, l⟩ g2 hx (by show i ≤ l.length; omega) out ho with
        ⟨l3, r1, r2, r3, r4, r5⟩ | ⟨l3, n', w, m, r1, r2, r3, r4, r5, r6, r7⟩
      · refine .inl ⟨l3, r1, fun e he => r2 e (hsub e he), r3, ?_, ?_⟩
        · intro _ u hu
          refine r2 x ?_
          by_cases hex : ∃ e ∈ c.list, SameBlock x e
          · obtain ⟨e, he, hse⟩ := hex
            have hpe := (sameBlock_iff_path hbx (h.blk e he)).mp hse
            rcases h.mem e he with h' | ⟨v, h'⟩
            · rw [← hpe, hx] at h'
              cases h'
              exact hsub x he
            · rw [← hpe, hu] at h'
              have := (List.append_inj' h' rfl).2
              simp at this
          · exact (p3 x).mpr (.inr ⟨rfl, hex⟩)
        · intro j hj k hk hb
          by_cases hji : j = i
          · subst hji
            rw [hget] at hk
            cases hk
            exact hno
          · refine r5 j (by omega) k ?_ hb
            show l[j]? = some k
            rcases listPush_spec c.list x h.asc with ⟨-, g⟩ | ⟨-, l1, l2, q1, q2, -, q4, -⟩
            · rw [g1] at g; cases g; exact hk
            · rw [g1] at q2; cases q2
              rw [q1] at hk
              by_cases hjl : j < l1.length
              · rw [List.getElem?_append_left hjl] at hk ⊢
                exact hk
              · exfalso
                rw [List.getElem?_append_right (by omega)] at hk
                exact before_asymm hb (q4 k (List.mem_of_getElem? hk))
      · exact .inr ⟨l3, n', w, m, fun e he => r1 e (hsub e he), r2, r3, r4, r5, r6, r7⟩

theorem onWay_cases {p u : List Bool} {k : Nat} (h : OnWay (p ++ List.replicate k true) u) :
    (u <+: p ∧ u.length < p.length) ∨ ∃ j, j < k ∧ u = p ++ List.replicate j true := by
  obtain ⟨b, h⟩ := h
  have hu : u <+: p ++ List.replicate k true := (List.prefix_append _ _).trans h
  have hl := h.length_le
  simp at hl
  by_cases hlen : u.length < p.length
  · exact .inl ⟨List.prefix_of_prefix_length_le hu (List.prefix_append _ _) (by omega), hlen⟩
  · right
    refine ⟨u.length - p.length, by omega, ?_⟩
    rw [List.prefix_iff_eq_take] at hu
    rw [hu, List.take_append]
    rw [List.take_of_length_le (by omega), List.take_replicate]
    congr 1
    rw [Nat.min_eq_left (by omega)]
    congr 1
    simp

/-- The list keeps what is still needed. -/
theorem keeps {x n : Network} {u : List Bool} {k : Nat} (hx : Block x) (hn : Block n) (hp : path n = u ++ [false])
    (hw : OnWay (path x ++ List.replicate k true) u) (ha : ¬ Around u)
    (hfree : ∀ j, j < k → u ≠ path x ++ List.replicate j true) : ¬ netPrefix n > netPrefix x := by
  rcases onWay_cases hw with ⟨hpre, hlen⟩ | ⟨j, hj, e⟩
  · have l1 := congrArg List.length hp
    rw [length_path hn.le] at l1
    rw [length_path hx.le] at hlen
    simp at l1
    have fx := block_v4_iff hx
    have fn := block_v4_iff hn
    cases ex : x.family with
    | inet6 =>
      simp only [netPrefix, ex]
      split <;> omega
    | inet =>
      have hv := fx.mp ex
      have hvu : v4path <+: u := by
        by_cases hle : u.length ≤ v4path.length
        · have hup := List.prefix_of_prefix_length_le hpre hv hle
          have : u = v4path := Classical.byContradiction fun hne => ha ⟨hup, hne⟩
          rw [this]; exact List.prefix_refl _
        · exact List.prefix_of_prefix_length_le hv hpre (by omega)
      have en : n.family = .inet := fn.mpr (by rw [hp]; exact hvu.trans (List.prefix_append _ _))
      simp only [netPrefix, ex, en]
      omega
  · exact absurd e (hfree j hj)

theorem around_concat {w : List Bool} (hu : ¬ unsplittable w) (h : Around w) :
    ∃ b : Bool, Around (w ++ [b]) := by
  obtain ⟨h1, h2⟩ := h
  obtain ⟨b, hb⟩ := strict_concat h1 h2
  refine ⟨b, hb, fun e => ?_⟩
  have hv : v4path <+: w ++ [b] := by rw [e]; exact List.prefix_refl _
  rcases (v4path_concat_iff w b).mp hv with h | ⟨h, -⟩
  · exact h2 (prefix_antisymm h1 h)
  · exact hu (.inr h)

theorem step_join (ctz0 : Nat) (h0 : 8 ≤ ctz0) {T0 : PathMap} {q : List Bool} :
    ∀ (fuel k : Nat) (x : Network) (c c' : TreeCtx), path x ++ List.replicate k true = q →
    look c.tree (path x) = some x → (∀ j, j < k → look c.tree (path x ++ List.replicate j true ++ [false]) = none) →
    Join T0 (fun u => pre u q = true ∨ u = q) (OnWay q) (· = path x) c →
    mergeStep ctz0 netPrefix fuel x c = .ok c' →
    Join T0 (fun u => pre u q = true ∨ u = q) (OnWay q) (fun _ => False) c' ∧
      ∀ u, path x ++ [] ≠ u → (path x).length < u.length → look c.tree u = none → look c'.tree u = none := by
  intro fuel
  induction fuel with
  | zero => intro k x c c' _ _ _ _ h; cases h
  | succ fuel ih =>
    intro k x c c' hq hx hfree hJ hrun
    have hbx := (look_block hJ.inv.wf hx).1
    have hxq : path x <+: q := by rw [← hq]; exact List.prefix_append _ _
    -- the lower half belonging to `x` is in the list
    have partner : ∀ w n0, path x = w ++ [true] → look c.tree (w ++ [false]) = some n0 → ¬ unsplittable w →
        n0 ∈ c.list ∧ Block n0 ∧ path n0 = w ++ [false] := by
      intro w n0 hp hl hu
      obtain ⟨b1, b2⟩ := look_block hJ.inv.wf hl
      refine ⟨hJ.a2 w n0 hl ⟨true, by rw [← hp]; exact hxq⟩ ?_ ?_, b1, b2⟩
      · intro ha
        obtain ⟨b, hb⟩ := around_concat hu ha
        have := hJ.out _ hb
        cases b
        · rw [hl] at this; cases this
        · rw [← hp, hx] at this; cases this
      · rw [hp]; simp
    unfold mergeStep at hrun
    by_cases hl : c.list.length = 0
    · rw [if_pos hl] at hrun
      have hnil : c.list = [] := List.eq_nil_of_length_eq_zero hl
      obtain ⟨l, g1, g2, -⟩ := hJ.inv.push hx
      simp only [g1] at hrun
      cases hrun
      have hl1 : l = [x] := by
        rw [hnil] at g1
        rcases listPush_spec [] x List.Pairwise.nil with ⟨⟨e, he, -⟩, -⟩ | ⟨-, l1, l2, q1, q2, -⟩
        · cases he
        · rw [g1] at q2
          cases q2
          have := List.append_eq_nil_iff.mp q1.symm
          rw [this.1, this.2]; rfl
      refine ⟨⟨g2, hJ.out, ?_, ?_, hJ.a3⟩, fun u _ _ hu => hu⟩
      · intro w n0 n1 e0 e1 hu hr hs _
        by_cases hw : w ++ [true] = path x
        · have := (partner w n0 hw.symm e0 hu).1
          rw [hnil] at this; cases this
        · exact hJ.a1 w n0 n1 e0 e1 hu hr hs hw
      · intro u n hn hp ha _
        by_cases hw : u ++ [false] = path x
        · have e : look c.tree (u ++ [false]) = some n := hn
          rw [hw, hx] at e
          cases e
          show x ∈ l
          rw [hl1]; simp
        · have := hJ.a2 u n hn hp ha hw
          rw [hnil] at this; cases this
    · rw [if_neg hl] at hrun
      cases hloop : mergeLoop ctz0 (mergeStep ctz0 netPrefix fuel) x c.list.length c with
      | error e => rw [hloop] at hrun; cases hrun
      | ok out =>
        rw [hloop] at hrun
        rcases mergeLoop_cases ctz0 h0 _ x c.list.length c hJ.inv hx (Nat.le_refl _) out hloop with
          ⟨l, r1, r2, r3, r4, r5⟩ | ⟨l, n, w, m, r1, r2, r3, r4, r5, r6, r7⟩
        · subst r1
          cases hrun
          refine ⟨⟨r3.shorter _, hJ.out, ?_, ?_, hJ.a3⟩, fun u _ _ hu => hu⟩
          · intro w n0 n1 e0 e1 hu hr hs _
            by_cases hw : w ++ [true] = path x
            · exfalso
              have e1' : look c.tree (w ++ [true]) = some n1 := e1
              rw [hw, hx] at e1'
              cases e1'
              obtain ⟨m1, m2, m3⟩ := partner w n0 hw.symm e0 hu
              obtain ⟨j, hj⟩ := List.getElem?_of_mem m1
              have hjl : j < c.list.length := (List.getElem?_eq_some_iff.mp hj).1
              exact r5 j hjl n0 hj (before_halves m2 hbx m3 hw.symm) ⟨w, ⟨m3, hw.symm, hu⟩, hr⟩
            · exact hJ.a1 w n0 n1 e0 e1 hu hr hs hw
          · intro u n hn hp ha _
            have hn' : look c.tree (u ++ [false]) = some n := hn
            obtain ⟨b1, b2⟩ := look_block hJ.inv.wf hn'
            show n ∈ listRemoveLonger l (netPrefix x)
            rw [listRemoveLonger, List.mem_filter]
            have hk : ¬ netPrefix n > netPrefix x := by
              refine keeps hbx b1 b2 (k := k) (by rw [hq]; exact hp) ha ?_
              intro j hj e
              have := hfree j hj
              rw [← e, hn'] at this
              cases this
            refine ⟨?_, by simpa using hk⟩
            by_cases hw : u ++ [false] = path x
            · rw [hw, hx] at hn'
              cases hn'
              exact r4 (by omega) u hw.symm
            · exact r2 n (hJ.a2 u n hn' hp ha hw)
        · obtain ⟨p0, p1, hus⟩ := r3
          have hne : ∀ b : Bool, w ++ [b] ≠ w := by
            intro b e; have := congrArg List.length e; simp at this
          have hnl : look c.tree (w ++ [false]) = some n := by rw [← p0]; exact r6
          rcases r7 with ⟨t, s1, s2, s3, s4⟩ | ⟨t3, l2, c3, s1, s2, s3, s4, s5⟩
          · subst s1
            cases hrun
            refine ⟨⟨s4, ?_, ?_, ?_, ?_⟩, ?_⟩
            · intro u hu
              show look t u = none
              rw [s2]; exact hJ.out u hu
            · intro v n0 n1 e0 e1 hu hr hs _ ht
              have e0' : look c.tree (v ++ [false]) = some n0 := by rw [← s2]; exact e0
              have e1' : look c.tree (v ++ [true]) = some n1 := by rw [← s2]; exact e1
              by_cases hw : v ++ [true] = path x
              · have hvw : v = w := by
                  rw [p1] at hw
                  exact (List.append_inj' hw rfl).1
                subst hvw
                cases hlv : look c.tree v with
                | none => exact s3 hlv
                | some k =>
                  have := (hJ.a3 v k hlv ht).1
                  rw [e0'] at this; cases this
              · exact hJ.a1 v n0 n1 e0' e1' hu hr hs hw ht
            · intro u n' hn hp ha _
              have hn' : look c.tree (u ++ [false]) = some n' := by rw [← s2]; exact hn
              exact r1 n' (hJ.a2 u n' hn' hp ha (by rw [p1]; simp))
            · intro v n' hn ht
              have hn' : look c.tree v = some n' := by rw [← s2]; exact hn
              show look t _ = none ∧ _
              rw [s2]
              exact hJ.a3 v n' hn' ht
            · intro u _ _ hu
              show look t u = none
              rw [s2]; exact hu
          · subst s1
            have hwq : w <+: q := (List.prefix_append w [true]).trans (by rw [← p1]; exact hxq)
            have hJ2 : Join T0 (fun u => pre u q = true ∨ u = q) (OnWay q) (· = path m) ⟨t3, l2⟩ := by
              refine ⟨s3, ?_, ?_, ?_, ?_⟩
              · intro u hu
                show look t3 u = none
                rw [s4]
                by_cases huw : u = w
                · subst huw
                  exfalso
                  obtain ⟨b, hb⟩ := around_concat hus hu
                  have := hJ.out _ hb
                  cases b
                  · rw [hnl] at this; cases this
                  · rw [← p1, hx] at this; cases this
                · rw [if_neg huw]
                  split
                  · rfl
                  · exact hJ.out u hu
              · intro v n0 n1 e0 e1 hu hr hs he
                have e0' : look t3 (v ++ [false]) = some n0 := e0
                have e1' : look t3 (v ++ [true]) = some n1 := e1
                rw [s4] at e0' e1'
                rw [r4] at he
                rw [if_neg he] at e1'
                by_cases hv0 : v ++ [false] = w
                · exfalso
                  exact pre_upper (by rw [hv0]; exact hwq) hs
                · rw [if_neg hv0] at e0'
                  split at e0'
                  · cases e0'
                  · split at e1'
                    · cases e1'
                    · rename_i hc1
                      refine hJ.a1 v n0 n1 e0' e1' hu hr hs ?_
                      rw [p1]
                      exact fun e => hc1 (.inr e)
              · intro u n' hn hp ha he
                have hn' : look t3 (u ++ [false]) = some n' := hn
                rw [r4] at he
                rw [s4, if_neg he] at hn'
                split at hn'
                · cases hn'
                · rename_i hc
                  obtain ⟨b1, b2⟩ := look_block hJ.inv.wf hn'
                  have hin := hJ.a2 u n' hn' hp ha (by rw [p1]; simp)
                  refine s5 n' (r1 n' hin) ?_
                  intro hsb
                  have hbn := (look_block hJ.inv.wf hnl).1
                  have := (sameBlock_iff_path hbn b1).mp hsb
                  rw [b2, p0] at this
                  exact hc (.inl this.symm)
              · intro v n' hn ht
                have hn' : look t3 v = some n' := hn
                show look t3 _ = none ∧ _
                rw [s4] at hn' ⊢
                by_cases hv : v = w
                · subst hv
                  refine ⟨by rw [if_neg (hne _), if_pos (.inl rfl)], ?_⟩
                  exact pre_prefix (by rw [← p1]; exact hxq)
                · rw [if_neg hv] at hn'
                  split at hn'
                  · cases hn'
                  · obtain ⟨z1, z2⟩ := hJ.a3 v n' hn' ht
                    refine ⟨?_, z2⟩
                    by_cases hv0 : v ++ [false] = w
                    · exact absurd z2 (pre_upper (by rw [hv0]; exact hwq))
                    · rw [if_neg hv0, z1]
                      split <;> rfl
            have hk1 : ∀ j, path m ++ List.replicate (j + 1) true = path x ++ List.replicate j true := by
              intro j
              rw [r4, p1, List.replicate_succ]; simp
            have hlm : look t3 (path m) = some m := by rw [r4, s4, if_pos rfl]
            have hfree2 : ∀ j, j < k + 1 → look t3 (path m ++ List.replicate j true ++ [false]) = none := by
              intro j hj
              cases j with
              | zero =>
                rw [List.replicate_zero, List.append_nil, r4, s4, if_neg (hne _), if_pos (.inl rfl)]
              | succ j =>
                rw [hk1, s4, if_neg, hfree j (by omega)]
                · split <;> rfl
                · intro e
                  have := congrArg List.length e
                  rw [p1] at this
                  simp at this
            obtain ⟨hJ3, hfr⟩ := ih (k + 1) m ⟨t3, l2⟩ c3 (by rw [hk1]; exact hq) hlm hfree2 hJ2 s2
            cases hrun
            have hlen : (path m).length < (path x).length := by rw [r4, p1]; simp
            have hframe : ∀ u, path x ++ [] ≠ u → (path x).length < u.length → look c.tree u = none →
                look c3.tree u = none := by
              intro u hu1 hu2 hu3
              refine hfr u ?_ (by omega) ?_
              · intro e
                rw [← e] at hu2
                simp at hu2
                omega
              · show look t3 u = none
                rw [s4, if_neg, hu3]
                · split <;> rfl
                · intro e
                  rw [e, ← r4] at hu2
                  omega
            refine ⟨⟨hJ3.inv.shorter _, hJ3.out, hJ3.a1, ?_, hJ3.a3⟩, hframe⟩
            intro u n' hn hp ha he
            have hn' : look c3.tree (u ++ [false]) = some n' := hn
            obtain ⟨b1, b2⟩ := look_block hJ3.inv.wf hn'
            show n' ∈ listRemoveLonger c3.list (netPrefix x)
            rw [listRemoveLonger, List.mem_filter]
            refine ⟨hJ3.a2 u n' hn' hp ha he, ?_⟩
            have hk : ¬ netPrefix n' > netPrefix x := by
              refine keeps hbx b1 b2 (k := k) (by rw [hq]; exact hp) ha ?_
              intro j hj e
              have := hframe (u ++ [false]) (by
                intro e'
                have := congrArg List.length e'
                rw [e] at this
                simp at this)
                  (by rw [e]; simp) (by rw [e]; exact hfree j hj)
              rw [hn'] at this
              cases this
            simpa using hk

/-! ### the walk -/

theorem ex_of_look {t : Tree} {q u : List Bool} {n : Network} (hq : q <+: u) (h : look t u = some n) :
    ex t q = true := by
  obtain ⟨v, rfl⟩ := hq
  rw [ex_iff_sub]
  intro e
  have := look_sub t q v
  rw [e, h] at this
  simp at this

theorem join_walk (ctz0 : Nat) (h0 : 8 ≤ ctz0) (T0 : PathMap) : ∀ fuel q c,
    (Join T0 (fun u => pre u q = true) (OnWay q) (· = q) c ∧ ex c.tree q = true) → 128 < q.length + fuel →
    ∃ c', treeWalk TreeCtx.tree (fun _ => false) (mergeStep ctz0 netPrefix walkFuel) fuel q c = .ok c' ∧
      (Join T0 (fun u => pre u q = true ∨ q <+: u) (OnWay q) (fun _ => False) c' ∧
        ∀ u, ex c.tree u = true → ex c'.tree u = true) := by
  have onway0 : ∀ {q u : List Bool} {b : Bool}, OnWay (q ++ [b]) u → OnWay q u ∨ u = q := by
    rintro q u b ⟨b', h⟩
    rcases List.prefix_concat_iff.mp h with h | h
    · exact .inr (List.append_inj' h rfl).1
    · exact .inl ⟨b', h⟩
  have onway1 : ∀ {q u : List Bool} {b : Bool}, OnWay q u ∨ u = q → OnWay (q ++ [b]) u := by
    rintro q u b (⟨b', h⟩ | rfl)
    · exact ⟨b', h.trans (List.prefix_append _ _)⟩
    · exact ⟨b, List.prefix_refl _⟩
  refine treeWalk_rule
    (Pre := fun q c => Join T0 (fun u => pre u q = true) (OnWay q) (· = q) c ∧ ex c.tree q = true)
    (Post := fun q c c' => Join T0 (fun u => pre u q = true ∨ q <+: u) (OnWay q) (fun _ => False) c' ∧
      ∀ u, ex c.tree u = true → ex c'.tree u = true)
    (Mid0 := fun q c c' => (Join T0 (fun u => pre u q = true ∨ u = q) (OnWay q) (fun _ => False) c' ∧
      ∀ u, ex c.tree u = true → ex c'.tree u = true) ∧ ex c.tree q = true)
    (Mid1 := fun q c c' => (Join T0 (fun u => pre u (q ++ [true]) = true) (fun u => OnWay q u ∨ u = q) (fun _ => False) c' ∧
      ∀ u, ex c.tree u = true → ex c'.tree u = true) ∧ ex c.tree q = true)
    ?_ ?_ ?_ ?_ ?_ ?_ ?_
  · intro q c h; exact ⟨h.1.inv.wf, h.2⟩
  · intro q c net z o h hs
    have hno : ∀ u, q <+: u → look c.tree u = none := by
      rintro _ ⟨v, rfl⟩
      rw [← look_sub, hs]
      have hg := good_sub h.1.inv.wf.1 q
      rw [hs] at hg
      obtain ⟨-, g2, -⟩ := hg
      obtain ⟨rfl, rfl, rfl⟩ := g2 rfl
      cases v with
      | nil => rfl
      | cons b v => cases b <;> simp [look]
    refine ⟨h.1.change (fun u hu => .inl hu) ?_ ?_, fun _ hu => hu⟩
    · rintro u (hu | hu) _ hl
      · refine ⟨hu, ?_⟩
        rintro rfl
        exact hl (hno _ (List.prefix_refl _))
      · exact absurd (hno u hu) hl
    · intro u hu _ hl
      refine ⟨hu, ?_⟩
      intro e
      exact hl (hno _ (by rw [e]; exact List.prefix_refl _))
  · intro q c n h _ hf; cases hf
  · intro q c h hl
    refine ⟨⟨h.1.change (fun u hu => .inl hu) ?_ ?_, fun _ hu => hu⟩, h.2⟩
    · rintro u (hu | rfl) _ hl'
      · refine ⟨hu, ?_⟩
        rintro rfl
        exact hl' hl
      · exact absurd hl hl'
    · intro u hu _ hl'
      refine ⟨hu, ?_⟩
      intro e
      exact hl' (by rw [e]; exact hl)
  · intro q c n h hl _
    obtain ⟨hb, hp⟩ := look_block h.1.inv.wf hl
    have hx : look c.tree (path n) = some n := by rw [hp]; exact hl
    obtain ⟨c', h1, h2⟩ := mergeStep_spec ctz0 h0 walkFuel netPrefix n c
      (Nat.lt_of_le_of_lt hb.le (by decide)) h.1.inv hx
    have hJ : Join T0 (fun u => pre u q = true ∨ u = q) (OnWay q) (· = path n) c := by
      rw [hp]
      exact h.1.change (fun u hu => .inl hu) (fun u hu he _ => ⟨hu.resolve_right he, he⟩) (fun u hu he _ => ⟨hu, he⟩)
    have := step_join ctz0 h0 (T0 := T0) (q := q) walkFuel 0 n c c' (by rw [hp]; simp) hx (by simp) hJ h1
    exact ⟨c', h1, ⟨this.1, h2.exm⟩, h.2⟩
  · rintro q c c1 ⟨⟨h1, h2⟩, h3⟩
    refine ⟨h2 q h3, ?_, ?_⟩
    · intro he
      have hno : ∀ u, q ++ [false] <+: u → look c1.tree u = none := by
        intro u hu
        cases hl : look c1.tree u with
        | none => rfl
        | some n => rw [ex_of_look hu hl] at he; cases he
      refine ⟨⟨h1.change ?_ ?_ ?_, h2⟩, h3⟩
      · intro u hu
        rw [pre_true, pre_false]
        exact .inl hu
      · intro u hu _ hl
        refine ⟨?_, fun h => h⟩
        rw [pre_true, pre_false] at hu
        rcases hu with hu | hu
        · exact hu
        · exact absurd (hno u hu) hl
      · rintro u (hu | rfl) _ hl
        · exact ⟨hu, fun h => h⟩
        · exact absurd (hno _ (List.prefix_refl _)) hl
    · intro he
      refine ⟨⟨h1.change ?_ ?_ ?_, he⟩, ?_⟩
      · intro u hu
        exact (pre_false u q).mpr hu
      · intro u hu _ _
        exact ⟨(pre_false u q).mp hu, fun h => h⟩
      · intro u hu hne _
        rcases onway0 hu with h | rfl
        · exact ⟨h, fun h => h⟩
        · exact absurd rfl hne
      · rintro c2 ⟨g1, g2⟩
        refine ⟨⟨g1.change ?_ ?_ ?_, fun u hu => g2 u (h2 u hu)⟩, h3⟩
        · intro u hu
          exact (pre_true u q).mpr hu
        · intro u hu _ _
          exact ⟨(pre_true u q).mp hu, fun h => h⟩
        · intro u hu _ _
          exact ⟨onway1 hu, fun h => h⟩
  · rintro q c c1 ⟨⟨h1, h2⟩, h3⟩
    refine ⟨h2 q h3, ?_, ?_⟩
    · intro he
      refine ⟨h1.change ?_ ?_ ?_, h2⟩
      · intro u hu
        exact (pre_sub u q).mp (.inl hu)
      · intro u hu _ hl
        refine ⟨?_, fun h => h⟩
        rcases (pre_sub u q).mpr hu with h | h
        · exact h
        · exfalso
          cases hl' : look c1.tree u with
          | none => exact hl hl'
          | some n => rw [ex_of_look h hl'] at he; cases he
      · intro u hu _ _
        exact ⟨.inl hu, fun h => h⟩
    · intro he
      refine ⟨⟨h1.change ?_ ?_ ?_, he⟩, ?_⟩
      · intro u hu; exact hu
      · intro u hu _ _; exact ⟨hu, fun h => h⟩
      · intro u hu _ _; exact ⟨onway0 hu, fun h => h⟩
      · rintro c2 ⟨g1, g2⟩
        refine ⟨g1.change ?_ ?_ ?_, fun u hu => g2 u (h2 u hu)⟩
        · intro u hu; exact (pre_sub u q).mp hu
        · intro u hu _ _; exact ⟨(pre_sub u q).mpr hu, fun h => h⟩
        · intro u hu _ _; exact ⟨onway1 (.inl hu), fun h => h⟩

theorem treeMerge_joins (ctz0 : Nat) (h0 : 8 ≤ ctz0) {t t' : Tree} (h : WF t)
    (hout : ∀ u, Around u → look t u = none) (hm : treeMerge ctz0 netPrefix t = .ok t') :
    (∀ u, Around u → look t' u = none) ∧
    ∀ w n0 n1, look t' (w ++ [false]) = some n0 → look t' (w ++ [true]) = some n1 → ¬ unsplittable w →
      SameRaw n0 n1 → look t w ≠ none := by
  have hJ : Join (look t) (fun u => pre u [] = true) (OnWay []) (· = []) ⟨t, []⟩ := by
    refine ⟨⟨h, List.Pairwise.nil, by simp, by simp⟩, hout, ?_, ?_, ?_⟩
    · intro w n0 n1 _ _ _ _ hs
      cases w <;> simp [pre] at hs
    · rintro u n _ ⟨b, hb⟩
      simp at hb
    · intro w n hn ht
      have hn' : look t w = some n := hn
      rw [hn'] at ht; cases ht
  obtain ⟨c', h1, h2, -⟩ := join_walk ctz0 h0 (look t) walkFuel [] ⟨t, []⟩ ⟨hJ, ex_root h⟩ (by decide)
  have hc : c'.tree = t' := by
    simp only [treeMerge, h1] at hm
    exact Except.ok.inj hm
  rw [← hc]
  exact ⟨h2.out, fun w n0 n1 e0 e1 hu hr => h2.a1 w n0 n1 e0 e1 hu hr (.inr (List.nil_prefix)) (fun h => h)⟩

end Loc
