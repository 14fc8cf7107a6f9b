import Verif.Model.Tree
import Verif.Lemmas.Merge
import Verif.Lemmas.NetworkList
/-
Structural lemmas about the trie: paths, look-up by path, adding and deleting.
-/
namespace Loc
open Spec

/-- Network stored at a path. -/
def look : Tree → List Bool → Option Network
  | .nil, _ => none
  | .node _ net _ _, [] => net
  | .node _ _ z o, b :: bs => look (if b then o else z) bs

/-- A node exists at the path. -/
def ex : Tree → List Bool → Bool
  | .nil, _ => false
  | .node _ _ _ _, [] => true
  | .node _ _ z o, b :: bs => ex (if b then o else z) bs

/-- Structural invariant of a subtree that hangs at path `p`. -/
def Good : List Bool → Tree → Prop
  | _, .nil => True
  | p, .node d net z o => p.length ≤ 128 ∧ (d = true → net = none ∧ z = .nil ∧ o = .nil) ∧
      (∀ n, net = some n → Block n ∧ path n = p) ∧ Good (p ++ [false]) z ∧ Good (p ++ [true]) o

/-- Not `NULL` and not deleted. -/
def Alive : Tree → Prop
  | .node false _ _ _ => True
  | _ => False

structure WF (t : Tree) : Prop where
  good : Good [] t
  alive : Alive t

@[simp] theorem look_nil (w : List Bool) : look .nil w = none := by cases w <;> rfl
@[simp] theorem ex_nil (w : List Bool) : ex .nil w = false := by cases w <;> rfl
@[simp] theorem sub_nil (w : List Bool) : Tree.sub .nil w = .nil := by cases w <;> rfl
@[simp] theorem sub_root (t : Tree) : t.sub [] = t := by cases t <;> rfl

theorem sub_append (t : Tree) (u v : List Bool) : t.sub (u ++ v) = (t.sub u).sub v := by
  induction u generalizing t with
  | nil => simp
  | cons b u ih =>
    cases t with
    | nil => simp
    | node d n z o => simp only [List.cons_append, Tree.sub]; exact ih _

theorem look_sub (t : Tree) (u v : List Bool) : look (t.sub u) v = look t (u ++ v) := by
  induction u generalizing t with
  | nil => simp
  | cons b u ih =>
    cases t with
    | nil => simp
    | node d n z o => simp only [List.cons_append, Tree.sub, look]; exact ih _

theorem ex_sub (t : Tree) (u v : List Bool) : ex (t.sub u) v = ex t (u ++ v) := by
  induction u generalizing t with
  | nil => simp
  | cons b u ih =>
    cases t with
    | nil => simp
    | node d n z o => simp only [List.cons_append, Tree.sub, ex]; exact ih _

theorem good_sub {p : List Bool} {t : Tree} (h : Good p t) (u : List Bool) : Good (p ++ u) (t.sub u) := by
  induction u generalizing t p with
  | nil => simpa using h
  | cons b u ih =>
    cases t with
    | nil => simp [Good]
    | node d n z o =>
      obtain ⟨-, -, -, hz, ho⟩ := h
      have e : p ++ b :: u = (p ++ [b]) ++ u := by simp
      rw [e]
      cases b
      · exact ih hz
      · exact ih ho

theorem ex_iff_sub (t : Tree) (u : List Bool) : ex t u = true ↔ t.sub u ≠ .nil := by
  have := ex_sub t u []
  rw [List.append_nil] at this
  rw [← this]
  cases t.sub u <;> simp [ex]

theorem look_ex {t : Tree} {u : List Bool} {n : Network} (h : look t u = some n) : ex t u = true := by
  rw [ex_iff_sub]
  intro e
  have := look_sub t u []
  rw [e, List.append_nil, h] at this
  simp at this

/-- prefixes of existing nodes exist -/
theorem ex_prefix {t : Tree} {u v : List Bool} (h : u <+: v) (hv : ex t v = true) : ex t u = true := by
  obtain ⟨w, rfl⟩ := h
  rw [ex_iff_sub] at hv ⊢
  intro e
  rw [sub_append, e] at hv
  simp at hv

theorem look_block {t : Tree} (h : WF t) {u : List Bool} {n : Network} (hl : look t u = some n) :
    Block n ∧ path n = u := by
  have hg := good_sub h.good u
  have := look_sub t u []
  rw [List.append_nil, hl] at this
  cases hs : t.sub u with
  | nil => rw [hs] at this; simp at this
  | node d net z o =>
    rw [hs] at hg this
    simp only [look] at this
    subst this
    exact hg.2.2.1 n rfl

theorem ex_length {t : Tree} (h : WF t) {u : List Bool} (hu : ex t u = true) : u.length ≤ 128 := by
  have hg := good_sub h.good u
  rw [ex_iff_sub] at hu
  cases hs : t.sub u with
  | nil => exact absurd hs hu
  | node d net z o => rw [hs] at hg; exact hg.1

theorem sub_deleted {t : Tree} (h : WF t) {u : List Bool} {net : Option Network} {z o : Tree}
    (hs : t.sub u = .node true net z o) : net = none ∧ z = .nil ∧ o = .nil := by
  have hg := good_sub h.good u
  rw [hs] at hg
  exact hg.2.1 rfl

theorem netBits_eq {n : Network} (h : Block n) : netBits n = path n := by
  unfold netBits path bits
  apply List.ext_getElem
  · simp [h.le]
  · intro i h1 h2
    simp at h1 h2
    simp

theorem getNode_look (t : Tree) (v : List Bool) : look (getNode t) v = look t v := by
  cases t with
  | nil =>
    cases v with
    | nil => rfl
    | cons b v => simp [getNode, Tree.fresh, look]
  | node d n z o => cases d <;> cases v <;> rfl

theorem getNode_alive (t : Tree) : Alive (getNode t) := by
  cases t with
  | nil => trivial
  | node d n z o => cases d <;> trivial

theorem getNode_good {p : List Bool} {t : Tree} (hp : p.length ≤ 128) (h : Good p t) : Good p (getNode t) := by
  cases t with
  | nil => exact ⟨hp, by simp, by simp, trivial, trivial⟩
  | node d n z o =>
    obtain ⟨h1, h2, h3⟩ := h
    cases d
    · exact ⟨h1, h2, h3⟩
    · exact ⟨h1, by simp, h3⟩

theorem getNode_ex (t : Tree) (v : List Bool) : ex (getNode t) v = (ex t v || decide (v = [])) := by
  cases t with
  | nil =>
    cases v with
    | nil => rfl
    | cons b v => simp [getNode, Tree.fresh, ex]
  | node d n z o => cases d <;> cases v <;> simp [getNode, ex]

/-- Everything about `atPath`. -/
theorem atPath_spec {α : Type} (f : Tree → α × Tree) (w : List Bool) :
    ∀ (t : Tree) (p : List Bool), Good p t → Alive t → (p ++ w).length ≤ 128 →
      ∃ x, Alive x ∧ Good (p ++ w) x ∧ (∀ v, look x v = look t (w ++ v)) ∧
        (∀ v, ex x v = (ex t (w ++ v) || decide (v = []))) ∧
        ∃ t', atPath f t w = .ok ((f x).1, t') ∧
          (∀ u, w <+: u → t'.sub u = ((f x).2).sub (u.drop w.length)) ∧
          (∀ u, ¬ w <+: u → look t' u = look t u) ∧
          (∀ u, ¬ w <+: u → ex t' u = (ex t u || decide (u <+: w))) ∧
          (Good (p ++ w) (f x).2 → Good p t') ∧ (w ≠ [] → Alive t') ∧ (w = [] → t' = (f x).2) := by
  induction w with
  | nil =>
    intro t p hg ha hp
    cases t with
    | nil => exact absurd ha (by simp [Alive])
    | node d net z o =>
      refine ⟨.node d net z o, ha, by simpa using hg, by simp, ?_, (f (.node d net z o)).2, rfl,
        ?_, ?_, ?_, ?_, by simp, by simp⟩
      · intro v; cases v <;> simp [ex]
      · intro u hu; simp
      · intro u hu; exact absurd (List.nil_prefix) hu
      · intro u hu; exact absurd (List.nil_prefix) hu
      · intro h; simpa using h
  | cons b w ih =>
    intro t p hg ha hp
    cases t with
    | nil => exact absurd ha (by simp [Alive])
    | node d net z o =>
      have hd : d = false := by cases d <;> simp_all [Alive]
      subst hd
      have hplen : (p ++ [b]).length ≤ 128 := by simp at hp ⊢; omega
      obtain ⟨g1, g2, g3, gz, go⟩ := hg
      have hc : Good (p ++ [b]) (if b then o else z) := by cases b; exacts [gz, go]
      obtain ⟨x, hx1, hx2, hx3, hx4, t', h1, h2, h3, h4, h5, h6, h7⟩ :=
        ih (getNode (if b then o else z)) (p ++ [b]) (getNode_good hplen hc) (getNode_alive _) (by simp at hp ⊢; omega)
      have e : p ++ b :: w = (p ++ [b]) ++ w := by simp
      have hne : ∀ (c : Bool) (u : List Bool), ¬ b :: w <+: c :: u → c = b → ¬ w <+: u := by
        intro c u hu hcb h
        exact hu (by subst hcb; exact List.cons_prefix_cons.mpr ⟨rfl, h⟩)
      refine ⟨x, hx1, by rw [e]; exact hx2, ?_, ?_, if b then .node false net z t' else .node false net t' o,
        ?_, ?_, ?_, ?_, ?_, ?_, by simp⟩
      · intro v
        rw [hx3, getNode_look]; rfl
      · intro v
        rw [hx4, getNode_ex]
        simp only [List.cons_append, ex]
        cases w <;> cases v <;> simp
      · cases b
        · simp only [atPath]; rw [show getNode z = getNode (if false then o else z) from rfl, h1]; rfl
        · simp only [atPath]; rw [show getNode o = getNode (if true then o else z) from rfl, h1]; rfl
      · intro u hu
        cases u with
        | nil => simp at hu
        | cons c u =>
          obtain ⟨rfl, hu'⟩ := List.cons_prefix_cons.mp hu
          have := h2 u hu'
          cases b <;> simpa [Tree.sub] using this
      · intro u hu
        cases u with
        | nil => cases b <;> simp [look]
        | cons c u =>
          by_cases hcb : c = b
          · have := h3 u (hne c u hu hcb)
            subst hcb
            rw [getNode_look] at this
            cases c <;> simpa [look] using this
          · cases b <;> cases c <;> simp [look] at hcb ⊢
      · intro u hu
        cases u with
        | nil => cases b <;> simp [ex]
        | cons c u =>
          by_cases hcb : c = b
          · have := h4 u (hne c u hu hcb)
            subst hcb
            rw [getNode_ex] at this
            have k : decide (c :: u <+: c :: w) = decide (u <+: w) := by
              simp [List.cons_prefix_cons]
            rw [k]
            have k2 : (ex (if c then o else z) u || decide (u = []) || decide (u <+: w)) =
                (ex (if c then o else z) u || decide (u <+: w)) := by
              cases u with
              | nil => simp
              | cons _ _ => simp
            rw [k2] at this
            cases c <;> simpa [ex] using this
          · have k : decide (c :: u <+: b :: w) = false := by
              simp [List.cons_prefix_cons, hcb]
            rw [k]
            cases b <;> cases c <;> simp [ex] at hcb ⊢
      · intro hgx
        rw [e] at hgx
        have := h5 hgx
        cases b
        · exact ⟨g1, by simp, g3, this, go⟩
        · exact ⟨g1, by simp, g3, gz, this⟩
      · intro _; cases b <;> trivial

/-- `atPath` with an operation that only touches the network field and the deleted mark. -/
theorem atPath_update {α : Type} (f : Tree → α × Tree) {t : Tree} (h : WF t) {n : Network} (hn : Block n) :
    ∃ net z o, look t (path n) = net ∧ Good (path n) (.node false net z o) ∧
      ∀ d' net', (f (.node false net z o)).2 = .node d' net' z o →
        (d' = true → path n ≠ [] ∧ net' = none ∧ z = .nil ∧ o = .nil) →
        (∀ k, net' = some k → Block k ∧ path k = path n) →
        ∃ t', atPath f t (path n) = .ok ((f (.node false net z o)).1, t') ∧ WF t' ∧
          (∀ u, ex t' u = (ex t u || decide (u <+: path n))) ∧
          (∀ u, look t' u = if u = path n then net' else look t u) := by
  obtain ⟨x, hx1, hx2, hx3, hx4, t', h1, h2, h3, h4, h5, h6, h7⟩ := atPath_spec f (path n) t [] h.good h.alive
      (by simpa [length_path hn.le] using hn.le)
  have hl := hx3 []
  rw [List.append_nil] at hl
  cases x with
  | nil => simp [Alive] at hx1
  | node d net z o =>
    have hd : d = false := by cases d <;> simp_all [Alive]
    subst hd
    refine ⟨net, z, o, hl.symm, by simpa using hx2, ?_⟩
    intro d' net' hf hdel hnet
    rw [hf] at h2 h5 h7
    have hlk : ∀ u, path n <+: u → look t' u = look (Tree.sub (.node d' net' z o) (u.drop (path n).length)) [] := by
      intro u hu
      rw [← h2 u hu, look_sub]; simp
    have hdrop : ∀ u, path n <+: u → path n ++ u.drop (path n).length = u := by
      rintro u ⟨v, rfl⟩; simp
    refine ⟨t', h1, ⟨h5 ?_, ?_⟩, ?_, ?_⟩
    · obtain ⟨a, b, c, d⟩ := hx2
      refine ⟨a, fun e => (hdel e).2, ?_, d⟩
      simpa using hnet
    · by_cases he : path n = []
      · rw [h7 he]
        cases d' with
        | false => trivial
        | true => exact absurd he (hdel rfl).1
      · exact h6 he
    · intro u
      by_cases hu : path n <+: u
      · have e1 := h2 u hu
        have e2 : ex t' u = ex (Tree.sub (.node d' net' z o) (u.drop (path n).length)) [] := by
          rw [← e1, ex_sub]; simp
        rw [e2, ex_sub]
        simp only [List.append_nil]
        have e3 := hx4 (u.drop (path n).length)
        rw [hdrop u hu] at e3
        have e4 : decide (u.drop (path n).length = []) = decide (u <+: path n) := by
          rw [decide_eq_decide]
          constructor
          · intro he
            have := hdrop u hu
            rw [he, List.append_nil] at this
            exact this ▸ List.prefix_refl _
          · intro hp
            have := hp.length_le
            exact List.drop_eq_nil_of_le this
        rw [e4] at e3
        rw [← e3]
        cases hdd : u.drop (path n).length with
        | nil => rfl
        | cons b bs => rfl
      · exact h4 u hu
    · intro u
      by_cases hu : path n <+: u
      · rw [hlk u hu, look_sub, List.append_nil]
        by_cases hu' : u = path n
        · subst hu'; simp [look]
        · rw [if_neg hu']
          have := hx3 (u.drop (path n).length)
          rw [hdrop u hu] at this
          rw [← this]
          cases hdd : u.drop (path n).length with
          | nil =>
            exfalso
            have h' := hdrop u hu
            rw [hdd, List.append_nil] at h'
            exact hu' h'.symm
          | cons b bs => rfl
      · rw [h3 u hu, if_neg]
        rintro rfl
        exact hu (List.prefix_refl _)

/-- Adding a network. -/
theorem treeAdd_spec {t : Tree} (h : WF t) {n : Network} (hn : Block n) :
    ∃ t', WF t' ∧ (∀ u, ex t' u = (ex t u || decide (u <+: path n))) ∧
      ((look t (path n) = none ∧ treeAdd t n = .ok (0, t') ∧
          ∀ u, look t' u = if u = path n then some n else look t u) ∨
       (∃ m, look t (path n) = some m ∧ treeAdd t n = .ok (EBUSY, t') ∧ ∀ u, look t' u = look t u)) := by
  unfold treeAdd
  rw [netBits_eq hn]
  obtain ⟨net, z, o, h1, h2, h3⟩ := atPath_update (setNode n) h hn
  cases net with
  | none =>
    obtain ⟨t', g1, g2, g3, g4⟩ := h3 false (some n) rfl (by simp) (by rintro k ⟨⟩; exact ⟨hn, rfl⟩)
    exact ⟨t', g2, g3, .inl ⟨h1, g1, g4⟩⟩
  | some m =>
    obtain ⟨t', g1, g2, g3, g4⟩ := h3 false (some m) rfl (by simp) h2.2.2.1
    refine ⟨t', g2, g3, .inr ⟨m, h1, g1, ?_⟩⟩
    intro u
    rw [g4]
    split
    · rename_i e; rw [e, h1]
    · rfl

/-- Deleting a network other than `::/0`. -/
theorem treeDelete_spec {t : Tree} (h : WF t) {n : Network} (hn : Block n) (h0 : path n ≠ []) :
    ∃ t', treeDelete t n = .ok t' ∧ WF t' ∧ (∀ u, ex t' u = (ex t u || decide (u <+: path n))) ∧
      ∀ u, look t' u = if u = path n then none else look t u := by
  unfold treeDelete
  rw [netBits_eq hn]
  obtain ⟨net, z, o, h1, h2, h3⟩ := atPath_update clearNode h hn
  have hf : ∃ d', (clearNode (.node false net z o)).2 = .node d' none z o ∧
      (d' = true → z = .nil ∧ o = .nil) := by
    cases z <;> cases o <;> simp [clearNode]
  obtain ⟨d', hf, hd'⟩ := hf
  obtain ⟨t', g1, g2, g3, g4⟩ := h3 d' none hf (fun e => ⟨h0, rfl, hd' e⟩) (by simp)
  exact ⟨t', by rw [g1], g2, g3, g4⟩

end Loc
