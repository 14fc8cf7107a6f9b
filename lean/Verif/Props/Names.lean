import Verif.Spec.Names
import Batteries.Lean.Except
/-
C52: the names of ASes and countries.
-/
namespace Loc.Props
open Loc Loc.Spec

/-- The live object `i` points to block `b`. -/
def Owns (m : NameMem) (i b : Nat) : Prop := ∃ y, m.objs[i]? = some y ∧ y.refs ≠ 0 ∧ y.name = some b

/-- The name of an object in memory is the expected one. -/
def NameOk (m : NameMem) (y : NameObj) (x : Named) : Prop :=
  (y.name = none ∧ x.name = none) ∨ ∃ b s, y.name = some b ∧ m.blocks[b]? = some (some s) ∧ x.name = some s

structure NInv (m : NameMem) (S : List Named) : Prop where
  len : m.objs.length = S.length
  rel : ∀ (i : Nat) (y : NameObj) (x : Named), m.objs[i]? = some y → S[i]? = some x → x.country = y.country ∧ x.refs = y.refs ∧ (y.refs ≠ 0 → NameOk m y x)
  inj : ∀ i j b, Owns m i b → Owns m j b → i = j
  cov : ∀ (b : Nat) (s : CStr), m.blocks[b]? = some (some s) → ∃ i, Owns m i b

theorem NInv.obj {m : NameMem} {S : List Named} (h : NInv m S) {o : Nat} {x : Named} (hx : held S o = some x) :
    ∃ y, m.objs[o]? = some y ∧ S[o]? = some x ∧ y.refs ≠ 0 ∧ nameObj m o = .ok y ∧ x.country = y.country ∧ x.refs = y.refs ∧ NameOk m y x := by
  unfold held at hx
  rw [Option.filter_eq_some_iff] at hx
  obtain ⟨h1, h2⟩ := hx
  simp only [ne_eq, decide_not, Bool.not_eq_eq_eq_not, Bool.not_true, decide_eq_false_iff_not] at h2
  obtain ⟨hlt, -⟩ := List.getElem?_eq_some_iff.mp h1
  rw [← h.len] at hlt
  refine ⟨m.objs[o], List.getElem?_eq_getElem hlt, h1, ?_⟩
  obtain ⟨g1, g2, g3⟩ := h.rel o _ x (List.getElem?_eq_getElem hlt) h1
  rw [g2] at h2
  refine ⟨h2, ?_, g1, g2, g3 h2⟩
  unfold nameObj
  rw [List.getElem?_eq_getElem hlt]
  simp only []
  rw [if_neg h2]

theorem ninv_nil : NInv ⟨[], []⟩ [] := ⟨rfl, by simp, by simp [Owns], by simp⟩

theorem owns_set {bl bl' : List (Option CStr)} {objs : List NameObj} {o i b : Nat} {y' : NameObj} :
    Owns ⟨bl', objs.set o y'⟩ i b → (i = o ∧ y'.refs ≠ 0 ∧ y'.name = some b) ∨ (i ≠ o ∧ Owns ⟨bl, objs⟩ i b) := by
  rintro ⟨z, h1, h2, h3⟩
  simp only [List.getElem?_set] at h1
  by_cases hi : o = i
  · rw [if_pos hi] at h1
    split at h1
    · cases h1; exact .inl ⟨hi.symm, h2, h3⟩
    · cases h1
  · rw [if_neg hi] at h1
    exact .inr ⟨fun h => hi h.symm, z, h1, h2, h3⟩

theorem owns_other {bl bl' : List (Option CStr)} {objs : List NameObj} {o i b : Nat} {y' : NameObj} (hi : i ≠ o) (h : Owns ⟨bl, objs⟩ i b) :
    Owns ⟨bl', objs.set o y'⟩ i b := by
  obtain ⟨z, h1, h2, h3⟩ := h
  exact ⟨z, by simp only [List.getElem?_set]; rw [if_neg (Ne.symm hi)]; exact h1, h2, h3⟩

/-- Changing one object. -/
theorem ninv_set {bl bl' : List (Option CStr)} {objs : List NameObj} {S : List Named} {o : Nat} {y y' : NameObj} {x x' : Named}
    (h : NInv ⟨bl, objs⟩ S) (hy : objs[o]? = some y) (hx : S[o]? = some x)
    (hc : x'.country = y'.country) (hr : x'.refs = y'.refs) (hn : y'.refs ≠ 0 → NameOk ⟨bl', objs⟩ y' x')
    (hsame : ∀ i b, i ≠ o → Owns ⟨bl, objs⟩ i b → bl'[b]? = bl[b]?)
    (hfresh : ∀ i b, i ≠ o → Owns ⟨bl, objs⟩ i b → y'.refs ≠ 0 → y'.name ≠ some b)
    (hcov : ∀ (b : Nat) (s : CStr), bl'[b]? = some (some s) → (y'.refs ≠ 0 ∧ y'.name = some b) ∨ ∃ i, i ≠ o ∧ Owns ⟨bl, objs⟩ i b) :
    NInv ⟨bl', objs.set o y'⟩ (S.set o x') := by
  obtain ⟨hlt, -⟩ := List.getElem?_eq_some_iff.mp hy
  obtain ⟨hlt', -⟩ := List.getElem?_eq_some_iff.mp hx
  refine ⟨by simp only [List.length_set]; exact h.len, ?_, ?_, ?_⟩
  · intro i z w hz hw
    simp only [List.getElem?_set] at hz hw
    by_cases hi : o = i
    · rw [if_pos hi, if_pos hlt] at hz
      rw [if_pos hi, if_pos hlt'] at hw
      cases hz; cases hw
      exact ⟨hc, hr, hn⟩
    · rw [if_neg hi] at hz hw
      obtain ⟨g1, g2, g3⟩ := h.rel i z w hz hw
      refine ⟨g1, g2, fun h0 => ?_⟩
      rcases g3 h0 with h4 | ⟨b, s, h4, h5, h6⟩
      · exact .inl h4
      · exact .inr ⟨b, s, h4, by rw [hsame i b (Ne.symm hi) ⟨z, hz, h0, h4⟩]; exact h5, h6⟩
  · intro i j b hi hj
    rcases owns_set (bl := bl) hi with ⟨rfl, a1, a2⟩ | ⟨a1, a2⟩ <;> rcases owns_set (bl := bl) hj with ⟨rfl, b1, b2⟩ | ⟨b1, b2⟩
    · rfl
    · exact absurd a2 (hfresh j b b1 b2 a1)
    · exact absurd b2 (hfresh i b a1 a2 b1)
    · exact h.inj i j b a2 b2
  · intro b s hb
    rcases hcov b s hb with ⟨h1, h2⟩ | ⟨i, h1, h2⟩
    · exact ⟨o, y', List.getElem?_set_self hlt, h1, h2⟩
    · exact ⟨i, owns_other h1 h2⟩

theorem nameOk_block {m m' : NameMem} (h : m.blocks = m'.blocks) {y : NameObj} {x : Named} : NameOk m y x → NameOk m' y x := by
  unfold NameOk
  rw [h]
  exact id

/-- The old name is freed. -/
theorem ninv_free {bl : List (Option CStr)} {objs : List NameObj} {S : List Named} {o : Nat} {y : NameObj} {x : Named}
    (h : NInv ⟨bl, objs⟩ S) (hy : objs[o]? = some y) (hx : S[o]? = some x) (h0 : y.refs ≠ 0) (hn : NameOk ⟨bl, objs⟩ y x) :
    ∃ bl', nameFreeOpt ⟨bl, objs⟩ y.name = .ok ⟨bl', objs⟩ ∧ (∀ i b, i ≠ o → Owns ⟨bl, objs⟩ i b → bl'[b]? = bl[b]?) ∧ bl'.length = bl.length ∧
      (∀ (b : Nat) (s : CStr), bl'[b]? = some (some s) → ∃ i, i ≠ o ∧ Owns ⟨bl, objs⟩ i b) := by
  rcases hn with ⟨h1, h2⟩ | ⟨b, s, h1, h2, h3⟩
  · refine ⟨bl, by rw [h1]; rfl, fun _ _ _ _ => rfl, rfl, fun b s hb => ?_⟩
    obtain ⟨i, hi⟩ := h.cov b s hb
    refine ⟨i, ?_, hi⟩
    rintro rfl
    obtain ⟨z, z1, z2, z3⟩ := hi
    simp only [] at z1
    rw [hy] at z1
    cases z1
    rw [h1] at z3
    cases z3
  · have hob : Owns ⟨bl, objs⟩ o b := ⟨y, hy, h0, h1⟩
    simp only [] at h2
    refine ⟨bl.set b none, ?_, ?_, by simp, ?_⟩
    · rw [h1]
      simp only [nameFreeOpt, nameFree, h2]
    · intro i c hi hc
      rw [List.getElem?_set, if_neg]
      rintro rfl
      exact hi (h.inj i o b hc hob)
    · intro c t hc
      rw [List.getElem?_set] at hc
      split at hc
      · split at hc <;> cases hc
      · rename_i hbc
        obtain ⟨i, hi⟩ := h.cov c t hc
        refine ⟨i, ?_, hi⟩
        rintro rfl
        obtain ⟨z, z1, z2, z3⟩ := hi
        simp only [] at z1
        rw [hy] at z1
        cases z1
        rw [h1] at z3
        cases z3
        exact hbc rfl

theorem owns_lt {bl : List (Option CStr)} {objs : List NameObj} {S : List Named} (h : NInv ⟨bl, objs⟩ S) {i b : Nat} (hi : Owns ⟨bl, objs⟩ i b) :
    b < bl.length := by
  obtain ⟨z, z1, z2, z3⟩ := hi
  obtain ⟨hlt, -⟩ := List.getElem?_eq_some_iff.mp z1
  have hlt' : i < S.length := by rw [← h.len]; exact hlt
  obtain ⟨-, -, g⟩ := h.rel i z _ z1 (List.getElem?_eq_getElem hlt')
  rcases g z2 with ⟨g1, -⟩ | ⟨c, s, g1, g2, -⟩
  · rw [g1] at z3; cases z3
  · rw [g1] at z3
    cases z3
    exact (List.getElem?_eq_some_iff.mp g2).1

theorem ninv_step {m : NameMem} {S S' : List Named} {op : NameOp} {out : Option (Option CStr)} (h : NInv m S) (hs : namedStep S op = some (S', out))
    (hu : ¬ Unsupported S op) : ∃ m', nameStep m op = .ok (m', out) ∧ NInv m' S' := by
  obtain ⟨bl, objs⟩ := m
  cases op with
  | new country =>
    cases hs
    refine ⟨_, rfl, ?_, ?_, ?_, ?_⟩
    · have := h.len
      simp only [List.length_append, List.length_singleton] at this ⊢
      omega
    · intro i y x hy hx
      have hl := h.len
      simp only [] at hl
      simp only [List.getElem?_append] at hy hx
      by_cases hi : i < objs.length
      · rw [if_pos hi] at hy
        rw [if_pos (by omega)] at hx
        exact h.rel i y x hy hx
      · rw [if_neg hi] at hy
        rw [if_neg (by omega)] at hx
        have h0 : i - objs.length = 0 := by
          have := (List.getElem?_eq_some_iff.mp hy).1
          simp only [List.length_singleton] at this
          omega
        rw [h0] at hy
        rw [show i - S.length = 0 by omega] at hx
        cases hy; cases hx
        exact ⟨rfl, rfl, fun _ => .inl ⟨rfl, rfl⟩⟩
    · have key : ∀ i b, Owns ⟨bl, objs ++ [⟨country, 1, none⟩]⟩ i b → Owns ⟨bl, objs⟩ i b := by
        rintro i b ⟨y, y1, y2, y3⟩
        simp only [List.getElem?_append] at y1
        by_cases hi : i < objs.length
        · rw [if_pos hi] at y1
          exact ⟨y, y1, y2, y3⟩
        · rw [if_neg hi] at y1
          have h0 : i - objs.length = 0 := by
            have := (List.getElem?_eq_some_iff.mp y1).1
            simp only [List.length_singleton] at this
            omega
          rw [h0] at y1
          cases y1
          cases y3
      intro i j b hi hj
      exact h.inj i j b (key i b hi) (key j b hj)
    · intro b s hb
      obtain ⟨i, y, y1, y2, y3⟩ := h.cov b s hb
      refine ⟨i, y, ?_, y2, y3⟩
      simp only [] at y1
      simp only [List.getElem?_append]
      rw [if_pos (List.getElem?_eq_some_iff.mp y1).1]
      exact y1
  | ref o =>
    simp only [namedStep, Option.map_eq_some_iff, Prod.mk.injEq] at hs
    obtain ⟨x, hx, rfl, rfl⟩ := hs
    obtain ⟨y, y1, y2, y3, y4, y5, y6, y7⟩ := h.obj hx
    simp only [nameStep, nameRef, y4]
    refine ⟨_, rfl, ninv_set h y1 y2 y5 (by simp only [y6]) (fun _ => y7) (fun _ _ _ _ => rfl) ?_ ?_⟩
    · intro i b hi hb _ hn
      exact hi (h.inj i o b hb ⟨y, y1, y3, hn⟩)
    · intro b s hb
      obtain ⟨i, hi⟩ := h.cov b s hb
      by_cases hio : i = o
      · subst hio
        obtain ⟨z, z1, z2, z3⟩ := hi
        simp only [] at z1
        simp only [] at y1
        rw [y1] at z1
        cases z1
        exact .inl ⟨Nat.succ_ne_zero _, z3⟩
      · exact .inr ⟨i, hio, hi⟩
  | unref o =>
    simp only [namedStep, Option.map_eq_some_iff, Prod.mk.injEq] at hs
    obtain ⟨x, hx, rfl, rfl⟩ := hs
    obtain ⟨y, y1, y2, y3, y4, y5, y6, y7⟩ := h.obj hx
    simp only [nameStep, nameUnref, y4]
    by_cases h1 : y.refs = 1
    · rw [if_pos h1]
      obtain ⟨bl', f1, f2, f3, f4⟩ := ninv_free h y1 y2 y3 y7
      rw [f1]
      simp only []
      exact ⟨_, rfl, ninv_set h y1 y2 y5 (by simp only [y6, h1]) (fun hne => absurd rfl hne) f2 (fun _ _ _ _ hne => absurd rfl hne)
        (fun b s hb => .inr (f4 b s hb))⟩
    · rw [if_neg h1]
      refine ⟨_, rfl, ninv_set h y1 y2 y5 (by simp only [y6]) (fun _ => y7) (fun _ _ _ _ => rfl) ?_ ?_⟩
      · intro i b hi hb _ hn
        exact hi (h.inj i o b hb ⟨y, y1, y3, hn⟩)
      · intro b s hb
        obtain ⟨i, hi⟩ := h.cov b s hb
        by_cases hio : i = o
        · subst hio
          obtain ⟨z, z1, z2, z3⟩ := hi
          simp only [] at z1
          simp only [] at y1
          rw [y1] at z1
          cases z1
          refine .inl ⟨?_, z3⟩
          simp only []
          omega
        · exact .inr ⟨i, hio, hi⟩
  | setName o arg =>
    simp only [namedStep, Option.bind_eq_some_iff, Option.map_eq_some_iff, Prod.mk.injEq] at hs
    obtain ⟨x, hx, n, hn, rfl, rfl⟩ := hs
    obtain ⟨y, y1, y2, y3, y4, y5, y6, y7⟩ := h.obj hx
    obtain ⟨bl', f1, f2, f3, f4⟩ := ninv_free h y1 y2 y3 y7
    have hdup : ∀ s, NInv (nameDup ⟨bl', objs⟩ o y s) (S.set o { x with name := some s }) := by
      intro s
      refine ninv_set h y1 y2 y5 y6 (fun _ => .inr ⟨bl'.length, s, rfl, by simp, rfl⟩) ?_ ?_ ?_
      · intro i b hi hb
        have := owns_lt h hb
        simp only []
        rw [← f2 i b hi hb, List.getElem?_append_left (by omega)]
      · intro i b hi hb _ heq
        have := owns_lt h hb
        simp only [Option.some.injEq] at heq
        omega
      · intro b t hb
        simp only [] at hb
        rw [List.getElem?_append] at hb
        split at hb
        · exact .inr (f4 b t hb)
        · rename_i hlt
          have := (List.getElem?_eq_some_iff.mp hb).1
          simp only [List.length_singleton] at this
          refine .inl ⟨y3, ?_⟩
          simp only [Option.some.injEq]
          omega
    have hnull : n = none → ∃ m', nameStore ⟨bl', objs⟩ o y none = .ok m' ∧ NInv m' (S.set o { x with name := n }) := by
      rintro rfl
      cases hcy : y.country with
      | false =>
        simp only [nameStore, hcy]
        refine ⟨_, rfl, ninv_set h y1 y2 y5 y6 (fun _ => .inl ⟨rfl, rfl⟩) f2 (fun _ _ _ _ _ hne => by cases hne) (fun b s hb => .inr (f4 b s hb))⟩
      | true =>
        have hxn : x.name = none := by
          refine Classical.byContradiction fun hne => ?_
          exact hu ⟨x, hx, hne, .inl ⟨by rw [y5, hcy], hn⟩⟩
        simp only [nameStore, hcy, if_true]
        rcases y7 with ⟨g1, -⟩ | ⟨b, s, -, -, g⟩
        · rw [g1] at f1
          cases f1
          refine ⟨_, rfl, ?_⟩
          have : S.set o { x with name := none } = S := by
            rw [← hxn]
            obtain ⟨hlt, he⟩ := List.getElem?_eq_some_iff.mp y2
            subst he
            exact List.set_getElem_self hlt
          rw [this]
          exact h
        · rw [hxn] at g; cases g
    simp only [nameStep, setName]
    cases arg with
    | null =>
      cases hn
      obtain ⟨m', g1, g2⟩ := hnull rfl
      simp only [nameArg, y4, f1, g1]
      exact ⟨_, rfl, g2⟩
    | str s =>
      cases hn
      simp only [nameArg, y4, f1, nameStore]
      exact ⟨_, rfl, hdup s⟩
    | nameOf p =>
      simp only [argName, Option.map_eq_some_iff] at hn
      obtain ⟨w, hw, rfl⟩ := hn
      obtain ⟨z, z1, z2, z3, z4, z5, z6, z7⟩ := h.obj hw
      simp only [nameArg, z4, y4, f1]
      rcases z7 with ⟨g1, g2⟩ | ⟨b, s, g1, g2, g3⟩
      · obtain ⟨m', i1, i2⟩ := hnull g2
        rw [g1]
        simp only [Option.map_none, i1]
        exact ⟨_, rfl, i2⟩
      · have hpo : p ≠ o := by
          rintro rfl
          rw [hw] at hx
          cases hx
          exact hu ⟨_, hw, by rw [g3]; simp, .inr rfl⟩
        rw [g1]
        simp only [] at g2
        simp only [Option.map_some, nameStore, nameLoad, f2 p b hpo ⟨z, z1, z3, g1⟩, g2]
        rw [g3]
        exact ⟨_, rfl, hdup s⟩
  | getName o =>
    simp only [namedStep, Option.map_eq_some_iff, Prod.mk.injEq] at hs
    obtain ⟨x, hx, rfl, rfl⟩ := hs
    obtain ⟨y, y1, y2, y3, y4, y5, y6, y7⟩ := h.obj hx
    simp only [nameStep, getName, y4]
    rcases y7 with ⟨g1, g2⟩ | ⟨b, s, g1, g2, g3⟩
    · rw [g1, g2]
      exact ⟨_, rfl, h⟩
    · rw [g1, g3]
      simp only [nameLoad, g2]
      exact ⟨_, rfl, h⟩

/-- C52: for any sequence of calls of a caller that only uses objects it holds references to, except for the two unsupported
    calls: freed memory is neither used nor freed again, `get_name` returns the name that was last set, and once all references
    were given back, no name is left in memory. -/
theorem names_partial (ops : List NameOp) (S : List Named) (outs : List (Option (Option CStr)))
    (hrun : namedRun [] ops = some (S, outs)) (hs : AllSupported [] ops) :
    ∃ m, nameRun ⟨[], []⟩ ops = .ok (m, outs) ∧ ((∀ x ∈ S, x.refs = 0) → ∀ b ∈ m.blocks, b = none) := by
  have key : ∀ (ops : List NameOp) (m : NameMem) (S S' : List Named) (outs : List (Option (Option CStr))), NInv m S →
      namedRun S ops = some (S', outs) → AllSupported S ops → ∃ m', nameRun m ops = .ok (m', outs) ∧ NInv m' S' := by
    intro ops
    induction ops with
    | nil => intro m S S' outs h hr _; cases hr; exact ⟨m, rfl, h⟩
    | cons op ops ih =>
      intro m S S' outs h hr hsup
      rw [namedRun] at hr
      cases hst : namedStep S op with
      | none => rw [hst] at hr; cases hr
      | some r =>
        obtain ⟨S1, o⟩ := r
        rw [hst] at hr
        simp only [Option.map_eq_some_iff, Prod.mk.injEq] at hr
        obtain ⟨⟨S2, os⟩, hr, rfl, rfl⟩ := hr
        have hsup2 := hsup.2
        rw [hst] at hsup2
        obtain ⟨m1, g1, g2⟩ := ninv_step h hst hsup.1
        obtain ⟨m2, i1, i2⟩ := ih m1 S1 S2 os g2 hr hsup2
        exact ⟨m2, by rw [nameRun, g1]; simp only [i1], i2⟩
  obtain ⟨m, g1, g2⟩ := key ops ⟨[], []⟩ [] S outs ninv_nil hrun hs
  refine ⟨m, g1, fun h0 b hb => ?_⟩
  cases b with
  | none => rfl
  | some s =>
    obtain ⟨k, hk, he⟩ := List.getElem_of_mem hb
    obtain ⟨i, y, y1, y2, -⟩ := g2.cov k s (by rw [List.getElem?_eq_getElem hk, he])
    have hlt := (List.getElem?_eq_some_iff.mp y1).1
    rw [g2.len] at hlt
    obtain ⟨-, h2, -⟩ := g2.rel i y _ y1 (List.getElem?_eq_getElem hlt)
    exact absurd (by rw [← h2]; exact h0 _ (List.getElem_mem hlt)) y2

/-- An AS and a country: names are set, copied, taken away and released. -/
def demoNames : List NameOp :=
  [.new false, .new true, .setName 0 (.str [65]), .setName 1 (.nameOf 0), .setName 0 .null, .getName 0, .getName 1, .ref 1, .unref 1, .unref 0,
    .unref 1]

example : ∃ S outs, namedRun [] demoNames = some (S, outs) ∧ AllSupported [] demoNames ∧ (∀ x ∈ S, x.refs = 0) ∧
    some (some [65]) ∈ outs := by
  refine ⟨_, _, rfl, ?_, by decide, by decide⟩
  refine ⟨id, id, ?_, ?_, ?_, id, id, id, id, id, id, trivial⟩
  · rintro ⟨x, hx, h1, -⟩; cases hx; exact h1 rfl
  · rintro ⟨x, hx, h1, -⟩; cases hx; exact h1 rfl
  · rintro ⟨x, hx, -, ⟨h1, -⟩ | h1⟩ <;> cases hx <;> cases h1

/-- C52 is violated: a country is given a name and then NULL; the object keeps the pointer to the freed string. -/
theorem names_violated_null : nameRun ⟨[], []⟩ [.new true, .setName 0 (.str [65]), .setName 0 .null, .getName 0] = .error .oob ∧
    nameRun ⟨[], []⟩ [.new true, .setName 0 (.str [65]), .setName 0 .null, .unref 0] = .error .oob ∧
    namedRun [] [.new true, .setName 0 (.str [65]), .setName 0 .null, .getName 0] = some ([⟨true, 1, none⟩], [none, none, none, some none]) :=
  ⟨rfl, rfl, rfl⟩

/-- C52 is violated: `set_name(o, get_name(o))` reads the string after it was freed, for ASes and for countries. -/
theorem names_violated_self (country : Bool) :
    nameRun ⟨[], []⟩ [.new country, .setName 0 (.str [65]), .setName 0 (.nameOf 0)] = .error .oob ∧
    (namedRun [] [.new country, .setName 0 (.str [65]), .setName 0 (.nameOf 0)]).isSome = true := by
  cases country <;> exact ⟨rfl, rfl⟩

end Loc.Props
