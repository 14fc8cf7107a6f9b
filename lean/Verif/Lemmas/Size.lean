import Verif.Lemmas.Added
import Verif.Lemmas.Written
import Verif.Lemmas.Trie
import Verif.Spec.Size
/-
How large the sections of a file get.
-/
namespace Loc
open Spec

/-- Sum of a number over a list. -/
def total {α : Type} (g : α → Nat) : List α → Nat
  | [] => 0
  | a :: l => g a + total g l

theorem total_append {α : Type} (g : α → Nat) (l m : List α) : total g (l ++ m) = total g l + total g m := by
  induction l with
  | nil => simp [total]
  | cons a l ih => simp only [List.cons_append, total, ih]; omega

theorem total_perm {α : Type} (g : α → Nat) {l m : List α} (h : l.Perm m) : total g l = total g m := by
  induction h with
  | nil => rfl
  | cons a _ ih => simp only [total, ih]
  | swap a b l => simp only [total]; omega
  | trans _ _ h1 h2 => rw [h1, h2]

theorem total_map {α β : Type} (g : β → Nat) (f : α → β) (l : List α) : total g (l.map f) = total (fun a => g (f a)) l := by
  induction l with
  | nil => rfl
  | cons a l ih => simp only [List.map_cons, total, ih]

theorem total_le {α : Type} {g k : α → Nat} (l : List α) (h : ∀ a ∈ l, g a ≤ k a) : total g l ≤ total k l := by
  induction l with
  | nil => exact Nat.le_refl _
  | cons a l ih =>
    have h1 := h a (by simp)
    have h2 := ih fun b hb => h b (by simp [hb])
    simp only [total]; omega

theorem total_subset {α : Type} [DecidableEq α] (g : α → Nat) {l : List α} (hn : l.Nodup) :
    ∀ {m : List α}, (∀ a ∈ l, a ∈ m) → total g l ≤ total g m := by
  induction l with
  | nil => intro m _; exact Nat.zero_le _
  | cons a l ih =>
    intro m h
    rw [List.nodup_cons] at hn
    have hp := List.perm_cons_erase (h a (by simp))
    rw [total_perm g hp]
    have := ih hn.2 (m := m.erase a) fun b hb =>
      (List.mem_erase_of_ne (by rintro rfl; exact hn.1 hb)).mpr (h b (by simp [hb]))
    simp only [total]; omega

/-! ### The tree -/

theorem pruned_holds {t : Tree} (h : Pruned t) (hn : t ≠ .nil) : 1 ≤ t.networks.length := by
  have : ex t [] = true := by cases t with
    | nil => exact absurd rfl hn
    | node => rfl
  obtain ⟨v, n, hl⟩ := pruned_ex h [] this
  exact List.length_pos_of_mem ((mem_networks t n).mpr ⟨_, hl⟩)

theorem pruned_size {t : Tree} : ∀ {p : List Bool}, Good p t → Pruned t →
    t.size + p.length * t.networks.length ≤ total (fun n => n.pfx + 1) t.networks := by
  induction t with
  | nil => intro p _ _; simp [Tree.size, Tree.networks, total]
  | node d net z o ihz iho =>
    intro p hg hp
    obtain ⟨-, -, hn, gz, go⟩ := hg
    obtain ⟨-, h1, pz, po⟩ := hp
    have a := ihz gz pz
    have b := iho go po
    simp only [List.length_append, List.length_cons, List.length_nil, Nat.zero_add] at a b
    simp only [Tree.size, Tree.networks, total_append, List.length_append]
    have hz : z ≠ .nil → 1 ≤ z.networks.length := pruned_holds pz
    have ho : o ≠ .nil → 1 ≤ o.networks.length := pruned_holds po
    have hnet : net.toList.length + p.length * net.toList.length ≤ total (fun n => n.pfx + 1) net.toList := by
      cases net with
      | none => simp [total]
      | some n =>
        obtain ⟨hb, hpath⟩ := hn n rfl
        have := length_path hb.le
        rw [hpath] at this
        simp [total]; omega
    have hpos : 1 ≤ net.toList.length + z.networks.length + o.networks.length := by
      rcases h1 with h1 | h1 | h1
      · obtain ⟨n, rfl⟩ := Option.isSome_iff_exists.mp h1; simp; omega
      · have := hz h1; omega
      · have := ho h1; omega
    rw [Nat.add_mul, Nat.one_mul] at a b
    rw [Nat.mul_add, Nat.mul_add]
    omega

/-- A clean tree has at most one node for every bit of a prefix, besides the root. -/
theorem prunedRoot_size {t : Tree} (hw : WF t) (h : PrunedRoot t) :
    t.size + t.networks.length ≤ 1 + total (fun n => n.pfx + 1) t.networks := by
  cases t with
  | nil => exact h.elim
  | node d net z o =>
    obtain ⟨-, hz, ho⟩ := h
    obtain ⟨-, -, hn, gz, go⟩ := hw.good
    have a := pruned_size gz hz
    have b := pruned_size go ho
    simp only [List.length_append, List.length_cons, List.length_nil, Nat.zero_add, Nat.one_mul] at a b
    simp only [Tree.size, Tree.networks, total_append, List.length_append]
    have : net.toList.length ≤ total (fun n => n.pfx + 1) net.toList := by cases net <;> simp [total]
    omega

theorem good_paths {t : Tree} : ∀ {p : List Bool}, Good p t → (t.networks.map path).Nodup ∧ ∀ n ∈ t.networks, p <+: path n := by
  induction t with
  | nil => intro p _; simp [Tree.networks]
  | node d net z o ihz iho =>
    intro p hg
    obtain ⟨-, -, hn, gz, go⟩ := hg
    obtain ⟨z1, z2⟩ := ihz gz
    obtain ⟨o1, o2⟩ := iho go
    have hz : ∀ n ∈ z.networks, ∃ v, path n = p ++ false :: v := fun n h => by
      obtain ⟨v, hv⟩ := z2 n h; exact ⟨v, by rw [← hv]; simp⟩
    have ho : ∀ n ∈ o.networks, ∃ v, path n = p ++ true :: v := fun n h => by
      obtain ⟨v, hv⟩ := o2 n h; exact ⟨v, by rw [← hv]; simp⟩
    have hnet : ∀ n ∈ net.toList, path n = p := fun n h => (hn n (by simpa using h)).2
    refine ⟨?_, ?_⟩
    · simp only [Tree.networks, List.map_append]
      rw [List.nodup_append, List.nodup_append]
      refine ⟨⟨by cases net <;> simp, z1, ?_⟩, o1, ?_⟩
      · intro a ha b hb
        obtain ⟨n, h1, rfl⟩ := List.mem_map.mp ha
        obtain ⟨k, h2, rfl⟩ := List.mem_map.mp hb
        obtain ⟨v, hv⟩ := hz k h2
        rw [hnet n h1, hv]
        intro e
        have := congrArg List.length e
        simp at this
      · intro a ha b hb
        obtain ⟨k, h2, rfl⟩ := List.mem_map.mp hb
        obtain ⟨v, hv⟩ := ho k h2
        rcases List.mem_append.mp ha with ha | ha
        · obtain ⟨n, h1, rfl⟩ := List.mem_map.mp ha
          rw [hnet n h1, hv]
          intro e
          have := congrArg List.length e
          simp at this
        · obtain ⟨n, h1, rfl⟩ := List.mem_map.mp ha
          obtain ⟨x, hx⟩ := hz n h1
          rw [hx, hv]
          intro e
          have := List.append_cancel_left e
          simp at this
    · intro n h
      simp only [Tree.networks, List.mem_append] at h
      rcases h with (h | h) | h
      · rw [hnet n h]; exact List.prefix_refl _
      · obtain ⟨v, hv⟩ := hz n h; exact ⟨_, hv.symm⟩
      · obtain ⟨v, hv⟩ := ho n h; exact ⟨_, hv.symm⟩

theorem nodup_of_paths {l : List Network} (h : (l.map path).Nodup) : l.Nodup := by
  rw [List.Nodup, List.pairwise_map] at h
  exact h.imp fun hne e => hne (by rw [e])

/-- Merging never needs more networks, nor longer prefixes. -/
theorem MergeStar.shrinks {f g : PathMap} (a : MergeStar f g) :
    ∃ φ : List Bool → List Bool, (∀ u, g u ≠ none → f (φ u) ≠ none ∧ u.length ≤ (φ u).length) ∧
      (∀ u v, g u ≠ none → g v ≠ none → φ u = φ v → u = v) := by
  induction a with
  | refl f => exact ⟨id, fun u h => ⟨h, Nat.le_refl _⟩, fun u v _ _ e => e⟩
  | @head f g h h1 _ ih =>
    obtain ⟨φ, p1, p2⟩ := ih
    obtain ⟨v, n0, n1, m, -, -, a3, a4, -, -, -, -, -, a7⟩ := h1
    let ψ : List Bool → List Bool := fun u => if u = v then v ++ [false] else u
    have hne : g (v ++ [false]) = none := by rw [a7]; simp
    have q1 : ∀ u, g u ≠ none → f (ψ u) ≠ none ∧ u.length ≤ (ψ u).length := by
      intro u hu
      by_cases e : u = v
      · simp only [ψ, if_pos e]; subst e; exact ⟨by rw [a3]; simp, by simp⟩
      · simp only [ψ, if_neg e]
        rw [a7, if_neg e] at hu
        split at hu
        · exact absurd rfl hu
        · exact ⟨hu, Nat.le_refl _⟩
    have q2 : ∀ u w, g u ≠ none → g w ≠ none → ψ u = ψ w → u = w := by
      intro u w hu hw e
      by_cases e1 : u = v <;> by_cases e2 : w = v
      · rw [e1, e2]
      · simp only [ψ, if_pos e1, if_neg e2] at e; rw [← e] at hw; exact absurd hne hw
      · simp only [ψ, if_neg e1, if_pos e2] at e; rw [e] at hu; exact absurd hne hu
      · simpa only [ψ, if_neg e1, if_neg e2] using e
    refine ⟨fun u => ψ (φ u), fun u hu => ?_, fun u w hu hw e => ?_⟩
    · obtain ⟨b1, b2⟩ := p1 u hu
      obtain ⟨c1, c2⟩ := q1 _ b1
      exact ⟨c1, Nat.le_trans b2 c2⟩
    · exact p2 u w hu hw (q2 _ _ (p1 u hu).1 (p1 w hw).1 e)

/-- The clean-up does not make the tree larger. -/
theorem cleanup_total {ctz0 : Nat} (h0 : 8 ≤ ctz0) (reread : Network → Nat) {t t3 : Tree} (h : WF t)
    (e : treeCleanup ctz0 reread t = .ok t3) :
    total (fun n => n.pfx + 1) t3.networks ≤ total (fun n => n.pfx + 1) t.networks ∧ WF t3 ∧ PrunedRoot t3 := by
  obtain ⟨t1, t2, t3', e', -, -, -, -, w3, hd, -, -, -, hm, hp⟩ := treeCleanup_spec ctz0 h0 reread h
  rw [e] at e'
  cases e'
  refine ⟨?_, w3, hp⟩
  obtain ⟨φ, p1, p2⟩ := hm.shrinks
  have hlook : ∀ n ∈ t3.networks, Block n ∧ look t3 (path n) ≠ none := fun n hn => by
    obtain ⟨a, b⟩ := (mem_networks_wf w3).mp hn
    exact ⟨a, by rw [b]; simp⟩
  have g3 := (good_paths w3.good).1
  have n3 : ((t3.networks.map path).map φ).Nodup := by
    rw [List.Nodup, List.pairwise_map]
    refine List.Pairwise.imp_of_mem ?_ g3
    intro u v hu hv hne e
    obtain ⟨n, hn, rfl⟩ := List.mem_map.mp hu
    obtain ⟨k, hk, rfl⟩ := List.mem_map.mp hv
    exact hne (p2 _ _ (hlook n hn).2 (hlook k hk).2 e)
  have hsub : ∀ u ∈ (t3.networks.map path).map φ, u ∈ t.networks.map path := by
    intro u hu
    obtain ⟨v, hv, rfl⟩ := List.mem_map.mp hu
    obtain ⟨n, hn, rfl⟩ := List.mem_map.mp hv
    have h1 := (p1 _ (hlook n hn).2).1
    rcases hd (φ (path n)) with h2 | h2
    · rw [h2] at h1
      obtain ⟨k, hk⟩ := Option.ne_none_iff_exists'.mp h1
      exact List.mem_map.mpr ⟨k, (mem_networks t k).mpr ⟨_, hk⟩, (look_block h hk).2⟩
    · exact absurd h2 h1
  have key := total_subset (fun u : List Bool => u.length + 1) n3 hsub
  rw [total_map, total_map, total_map] at key
  refine Nat.le_trans (total_le _ fun n hn => ?_) (Nat.le_trans key (total_le _ fun n hn => ?_))
  · have h1 := length_path (hlook n hn).1.le
    have h2 := (p1 _ (hlook n hn).2).2
    omega
  · have h1 := length_path ((mem_networks_wf h).mp hn).1.le
    omega

/-! ### Strings and lists -/

theorem poolAdd_size {p p' : Pool} {s : CStr} {off : Nat} (e : poolAdd p s = .ok (off, p')) :
    p'.data.length ≤ p.data.length + (s.length + 1) := by
  unfold poolAdd at e
  split at e
  · cases e
  · cases e; omega
  · unfold poolAppend at e
    simp only at e
    split at e <;> first | (cases e; simp) | (split at e <;> cases e; simp)

theorem writeAses_size (l : List AS) : ∀ {p p' : Pool} {bs : Bytes}, writeAses l p = .ok (bs, p') →
    p'.data.length ≤ p.data.length + total (fun a => stringBytes a.name) l := by
  induction l with
  | nil => intro p p' bs e; cases e; simp [total]
  | cons a l ih =>
    intro p p' bs e
    unfold writeAses at e
    split at e
    · cases e
    rename_i b p1 h1
    split at e
    · cases e
    rename_i bs' p2 h2
    cases e
    have a1 := ih h2
    unfold asRecord at h1
    split at h1
    · cases h1
    rename_i off p3 h3
    cases h1
    have a2 := poolAdd_size h3
    simp only [total]
    cases hn : a.name with
    | none => rw [hn] at a2; simp only [List.length_nil] at a2; simp only [stringBytes] at a1 ⊢; omega
    | some s => rw [hn] at a2; simp only at a2; simp only [stringBytes] at a1 ⊢; omega

theorem writeCountries_size (l : List Country) : ∀ {k : Byte × Byte} {p p' : Pool} {bs : Bytes}, writeCountries l k p = .ok (bs, p') →
    p'.data.length ≤ p.data.length + total (fun c => stringBytes c.name) l := by
  induction l with
  | nil => intro k p p' bs e; cases e; simp [total]
  | cons c l ih =>
    intro k p p' bs e
    unfold writeCountries at e
    split at e
    · cases e
    rename_i b k1 p1 h1
    split at e
    · cases e
    rename_i bs' p2 h2
    cases e
    have a1 := ih h2
    simp only [total]
    unfold countryRecord at h1
    simp only at h1
    cases hn : c.name with
    | none => rw [hn] at h1; cases h1; omega
    | some s =>
      rw [hn] at h1
      simp only at h1
      split at h1
      · cases h1
      rename_i off p3 h3
      cases h1
      have a2 := poolAdd_size h3
      simp only [stringBytes] at a1 ⊢
      omega

/-- What strings, ASes and countries of a writer take. -/
def listBytes {K : Type} (w : Writer K) : Nat :=
  w.pool.data.length + total (fun a => 8 + stringBytes a.name) w.ases + total (fun c => 8 + stringBytes c.name) w.countries

theorem rename_total (k : BitVec 32) (s : Option CStr) (l : List AS) (hn : (l.map (·.number)).Nodup) :
    total (fun a => 8 + stringBytes a.name) (l.map fun a => if a.number = k then { a with name := s } else a) ≤
      total (fun a => 8 + stringBytes a.name) l + stringBytes s ∧
    (k ∉ l.map (·.number) → (l.map fun a => if a.number = k then { a with name := s } else a) = l) := by
  induction l with
  | nil => simp [total]
  | cons a l ih =>
    rw [List.map_cons, List.nodup_cons] at hn
    obtain ⟨h1, h2⟩ := ih hn.2
    by_cases e : a.number = k
    · subst e
      refine ⟨?_, fun h => absurd (by simp) h⟩
      rw [List.map_cons, h2 hn.1]
      simp only [if_true, total]
      omega
    · refine ⟨?_, fun h => ?_⟩
      · simp only [List.map_cons, if_neg e, total]; omega
      · rw [List.map_cons, if_neg e, h2 (fun hm => h (by simp [hm]))]

theorem setString_size {K : Type} {w w' : Writer K} {s : CStr} {p : Pool} {off : Nat} (e : poolAdd w.pool s = .ok (off, p))
    (h1 : w'.pool = p) (h2 : w'.ases = w.ases) (h3 : w'.countries = w.countries) : listBytes w' ≤ listBytes w + (s.length + 1) := by
  have := poolAdd_size e
  unfold listBytes
  rw [h1, h2, h3]
  omega

theorem step_listBytes {K : Type} {ctz0 : Nat} {key1 key2 : Option K} {done : List (WOp K)} {w w' : Writer K}
    (hi : WInv ctz0 key1 key2 done w) {op : WOp K} (hw : IsWrite op = false) (e : wstep w op = .ok w') :
    listBytes w' ≤ listBytes w + callBytes op := by
  cases op with
  | vendor s =>
    cases s with
    | none => cases e; exact Nat.le_add_right _ _
    | some s =>
      simp only [wstep, setVendor] at e
      cases hp : poolAdd w.pool s with
      | error x => rw [hp] at e; cases x <;> cases e; exact Nat.le_add_right _ _
      | ok r => rw [hp] at e; cases e; exact setString_size hp rfl rfl rfl
  | description s =>
    cases s with
    | none => cases e; exact Nat.le_add_right _ _
    | some s =>
      simp only [wstep, setDescription] at e
      cases hp : poolAdd w.pool s with
      | error x => rw [hp] at e; cases x <;> cases e; exact Nat.le_add_right _ _
      | ok r => rw [hp] at e; cases e; exact setString_size hp rfl rfl rfl
  | license s =>
    cases s with
    | none => cases e; exact Nat.le_add_right _ _
    | some s =>
      simp only [wstep, setLicense] at e
      cases hp : poolAdd w.pool s with
      | error x => rw [hp] at e; cases x <;> cases e; exact Nat.le_add_right _ _
      | ok r => rw [hp] at e; cases e; exact setString_size hp rfl rfl rfl
  | addAs k s =>
    cases e
    simp only [listBytes, addAs, asListAppend, callBytes]
    split
    · omega
    · simp only [total_append, total]; omega
  | renameAs k s =>
    cases e
    have := (rename_total k s w.ases hi.nodup).1
    simp only [listBytes, renameAs, callBytes]
    omega
  | addCountry code cont name =>
    simp only [wstep, addCountry] at e
    cases hc : countryNew code with
    | error x => rw [hc] at e; cases x <;> cases e; exact Nat.le_add_right _ _
    | ok c =>
      rw [hc] at e
      cases e
      simp only [listBytes, countryListAppend, callBytes]
      split
      · omega
      · simp only [total_append, total]; omega
  | addNetwork n =>
    simp only [wstep, addNetwork] at e
    cases ht : treeAdd w.networks n with
    | error x => rw [ht] at e; cases e
    | ok r => rw [ht] at e; cases e; exact Nat.le_add_right _ _
  | changeNetwork n n' => cases e; exact Nat.le_add_right _ _
  | write e old v => cases hw

def listCost {K : Type} : WOp K → Nat
  | .addNetwork _ => 0
  | op => callBytes op

def netCost {K : Type} : WOp K → Nat
  | .addNetwork n => callBytes (K := K) (.addNetwork n)
  | _ => 0

theorem step_listCost {K : Type} {ctz0 : Nat} {key1 key2 : Option K} {done : List (WOp K)} {w w' : Writer K}
    (hi : WInv ctz0 key1 key2 done w) {op : WOp K} (hw : IsWrite op = false) (e : wstep w op = .ok w') :
    listBytes w' ≤ listBytes w + listCost op := by
  cases op with
  | addNetwork n =>
    simp only [wstep, addNetwork] at e
    cases ht : treeAdd w.networks n with
    | error x => rw [ht] at e; cases e
    | ok r => rw [ht] at e; cases e; exact Nat.le_add_right _ _
  | _ => exact step_listBytes hi hw e

/-- What ASes and countries of a writer take, with their names. -/
def entryBytes {K : Type} (w : Writer K) : Nat :=
  total (fun a => 8 + stringBytes a.name) w.ases + total (fun c => 8 + stringBytes c.name) w.countries

theorem step_entries {K : Type} {ctz0 : Nat} {key1 key2 : Option K} {done : List (WOp K)} {w w' : Writer K}
    (hi : WInv ctz0 key1 key2 done w) {op : WOp K} (hw : IsWrite op = false) (e : wstep w op = .ok w') :
    entryBytes w' ≤ entryBytes w + listCost op := by
  cases op with
  | vendor s =>
    cases s with
    | none => cases e; exact Nat.le_add_right _ _
    | some s =>
      simp only [wstep, setVendor] at e
      cases hp : poolAdd w.pool s with
      | error x => rw [hp] at e; cases x <;> cases e; exact Nat.le_add_right _ _
      | ok r => rw [hp] at e; cases e; exact Nat.le_add_right _ _
  | description s =>
    cases s with
    | none => cases e; exact Nat.le_add_right _ _
    | some s =>
      simp only [wstep, setDescription] at e
      cases hp : poolAdd w.pool s with
      | error x => rw [hp] at e; cases x <;> cases e; exact Nat.le_add_right _ _
      | ok r => rw [hp] at e; cases e; exact Nat.le_add_right _ _
  | license s =>
    cases s with
    | none => cases e; exact Nat.le_add_right _ _
    | some s =>
      simp only [wstep, setLicense] at e
      cases hp : poolAdd w.pool s with
      | error x => rw [hp] at e; cases x <;> cases e; exact Nat.le_add_right _ _
      | ok r => rw [hp] at e; cases e; exact Nat.le_add_right _ _
  | addAs k s =>
    cases e
    simp only [entryBytes, addAs, asListAppend, listCost, callBytes]
    split
    · omega
    · simp only [total_append, total]; omega
  | renameAs k s =>
    cases e
    have := (rename_total k s w.ases hi.nodup).1
    simp only [entryBytes, renameAs, listCost, callBytes]
    omega
  | addCountry code cont name =>
    simp only [wstep, addCountry] at e
    cases hc : countryNew code with
    | error x => rw [hc] at e; cases x <;> cases e; exact Nat.le_add_right _ _
    | ok c =>
      rw [hc] at e
      cases e
      simp only [entryBytes, countryListAppend, listCost, callBytes]
      split
      · omega
      · simp only [total_append, total]; omega
  | addNetwork n =>
    simp only [wstep, addNetwork] at e
    cases ht : treeAdd w.networks n with
    | error x => rw [ht] at e; cases e
    | ok r => rw [ht] at e; cases e; exact Nat.le_add_right _ _
  | changeNetwork n n' => cases e; exact Nat.le_add_right _ _
  | write e old v => cases hw

/-- What writing changes. -/
theorem writeSections_parts {K : Type} {e : WEnv K} {w w1 : Writer K} {s : Sections} (hs : writeSections e w = .ok (s, w1)) :
    treeCleanup e.ctz0 e.reread w.networks = .ok w1.networks ∧ w1.ases = asListSort w.ases ∧ w1.countries = w.countries ∧
      s.pool = w1.pool.data ∧
      w1.pool.data.length ≤ w.pool.data.length + total (fun a => stringBytes a.name) w.ases + total (fun c => stringBytes c.name) w.countries := by
  unfold writeSections at hs
  simp only at hs
  split at hs
  · cases hs
  rename_i asBytes pool1 h1
  split at hs
  · cases hs
  rename_i t ht
  split at hs
  · cases hs
  rename_i recs nets hb
  split at hs
  · cases hs
  rename_i ctBytes pool2 h2
  cases hs
  have a1 := writeAses_size _ h1
  have a2 := writeCountries_size _ h2
  rw [total_perm _ (asListSort_perm w.ases)] at a1
  exact ⟨ht, rfl, rfl, rfl, by simp only; omega⟩

theorem step_netCost {K : Type} {ctz0 : Nat} (h0 : 8 ≤ ctz0) {w w' : Writer K} (hr : Reach ctz0 w.networks) (hr' : Reach ctz0 w'.networks)
    {op : WOp K} (hop : OpOk ctz0 op) (hw : IsWrite op = false) (e : wstep w op = .ok w') :
    12 * total (fun n => n.pfx + 1) w'.networks.networks ≤ 12 * total (fun n => n.pfx + 1) w.networks.networks + netCost op := by
  have h1 := step_networks h0 hr (fun k => Iff.rfl) hop hw e
  have h2 := total_subset (fun n : Network => n.pfx + 1) (nodup_of_paths (good_paths (Props.reach_wf ctz0 h0 hr').1.good).1)
    fun n hn => (h1 n).mp hn
  refine Nat.le_trans (Nat.mul_le_mul_left 12 h2) ?_
  generalize w.networks.networks = l
  cases op with
  | addNetwork n =>
    simp only [networkStep, netCost, callBytes]
    split
    · omega
    · simp only [total_append, total]; omega
  | changeNetwork n n' =>
    simp only [networkStep, netCost]
    have hb : n'.pfx = n.pfx := hop.2.2
    rw [total_map]
    refine Nat.le_trans (Nat.mul_le_mul_left 12 (total_le (k := fun n => n.pfx + 1) l fun k _ => ?_)) (Nat.le_add_right _ _)
    by_cases e : k = n
    · rw [if_pos e, e, hb]
    · rw [if_neg e]
  | _ => exact Nat.le_add_right _ _

/-- What a writer takes after some calls. -/
structure Limits {K : Type} (done : List (WOp K)) (w : Writer K) : Prop where
  entries : entryBytes w ≤ total listCost done
  list : listBytes w ≤ 1 + (done.countP IsWrite + 1) * total listCost done
  nets : 12 * total (fun n => n.pfx + 1) w.networks.networks ≤ total netCost done

theorem total_const_add {α : Type} (g : α → Nat) (l : List α) : total (fun a => 8 + g a) l = 8 * l.length + total g l := by
  induction l with
  | nil => rfl
  | cons a l ih => simp only [total, ih, List.length_cons]; omega

theorem limits_step {K : Type} {ctz0 : Nat} (h0 : 8 ≤ ctz0) {key1 key2 : Option K} {done : List (WOp K)} {w w' : Writer K}
    (hi : WInv ctz0 key1 key2 done w) (h : Limits done w) {op : WOp K} (hop : OpOk ctz0 op) (e : wstep w op = .ok w') :
    Limits (done ++ [op]) w' := by
  have hi' := winv_step hi hop e
  obtain ⟨b1, b2, b3⟩ := h
  have hl : total listCost (done ++ [op]) = total listCost done + listCost op := by rw [total_append]; simp [total]
  have hn : total netCost (done ++ [op]) = total netCost done + netCost op := by rw [total_append]; simp [total]
  by_cases hw : IsWrite op = false
  · have hk : (done ++ [op]).countP IsWrite = done.countP IsWrite := by simp [List.countP_append, hw]
    have a1 := step_entries hi hw e
    have a2 := step_listCost hi hw e
    have a3 := step_netCost h0 hi.reach hi'.reach hop hw e
    refine ⟨by omega, ?_, by omega⟩
    rw [hk, hl, Nat.mul_add]
    have : listCost op ≤ (done.countP IsWrite + 1) * listCost op := Nat.le_mul_of_pos_left _ (by omega)
    omega
  · cases op with
    | write e0 old version =>
      have hk : (done ++ [WOp.write e0 old version]).countP IsWrite = done.countP IsWrite + 1 := by simp [List.countP_append, IsWrite]
      have z1 : listCost (WOp.write e0 old version) = 0 := rfl
      have z2 : netCost (WOp.write e0 old version) = 0 := rfl
      have key : entryBytes w' = entryBytes w ∧ listBytes w' ≤ listBytes w + entryBytes w ∧
          total (fun n => n.pfx + 1) w'.networks.networks ≤ total (fun n => n.pfx + 1) w.networks.networks := by
        simp only [wstep] at e
        cases hx : writerWrite e0 w old version with
        | error x => rw [hx] at e; cases e
        | ok r =>
          obtain ⟨w2, f⟩ := r
          rw [hx] at e
          cases e
          have of : ∀ {s : Sections} {w1 : Writer K}, writeSections e0 w = .ok (s, w1) →
              entryBytes w1 = entryBytes w ∧ listBytes w1 ≤ listBytes w + entryBytes w ∧
                total (fun n => n.pfx + 1) w1.networks.networks ≤ total (fun n => n.pfx + 1) w.networks.networks := by
            intro s w1 hs
            obtain ⟨p1, p2, p3, -, p5⟩ := writeSections_parts hs
            have q := total_perm (fun a : AS => 8 + stringBytes a.name) (asListSort_perm w.ases)
            refine ⟨by simp only [entryBytes, p2, p3, q], ?_, ?_⟩
            · simp only [listBytes, entryBytes, p2, p3, q]
              rw [total_const_add (fun a : AS => stringBytes a.name), total_const_add (fun a : Country => stringBytes a.name)]
              omega
            · exact (cleanup_total (hop ▸ h0 : 8 ≤ e0.ctz0) _ (Props.reach_wf ctz0 h0 hi.reach).1 p1).1
          rcases writerWrite_cases hx with ⟨rfl, -⟩ | ⟨s, w1, hs, ⟨rfl, -⟩ | ⟨_, _, _, _, _, _, -, -, -, -, rfl, -⟩⟩
          · exact ⟨rfl, Nat.le_add_right _ _, Nat.le_refl _⟩
          · exact of hs
          · have := of hs
            simpa only [entryBytes, listBytes] using this
      obtain ⟨c1, c2, c3⟩ := key
      refine ⟨by omega, ?_, by omega⟩
      have hl' : total listCost (done ++ [WOp.write e0 old version]) = total listCost done := by rw [hl, z1, Nat.add_zero]
      rw [hk, hl', Nat.add_mul (done.countP IsWrite + 1) 1, Nat.one_mul]
      omega
    | _ => exact absurd rfl hw

theorem limits_run {K : Type} {ctz0 : Nat} (h0 : 8 ≤ ctz0) {key1 key2 : Option K} (ops : List (WOp K)) :
    ∀ {done : List (WOp K)} {w w' : Writer K}, WInv ctz0 key1 key2 done w → Limits done w → (∀ op ∈ ops, OpOk ctz0 op) →
      wrun w ops = .ok w' → Limits (done ++ ops) w' := by
  induction ops with
  | nil => intro done w w' _ h _ e; cases e; simpa using h
  | cons op ops ih =>
    intro done w w' hi h hop e
    unfold wrun at e
    cases hs : wstep w op with
    | error x => rw [hs] at e; cases e
    | ok w1 =>
      rw [hs] at e
      have := ih (winv_step hi (hop op (by simp)) hs) (limits_step h0 hi h (hop op (by simp)) hs) (fun x hx => hop x (by simp [hx])) e
      simpa using this

theorem limits {K : Type} {ctz0 : Nat} (h0 : 8 ≤ ctz0) {key1 key2 : Option K} {ops : List (WOp K)} {w : Writer K}
    (h : Writes ctz0 key1 key2 ops w) : Limits ops w := by
  obtain ⟨hop, w0, hw0, hr⟩ := h
  refine limits_run h0 ops (done := []) (winv_new ctz0 key1 key2 hw0) ?_ hop hr
  unfold writerNew at hw0
  have : poolAdd poolNew [] = .ok (0, ⟨[0], poolBlock⟩) := rfl
  rw [this] at hw0
  cases hw0
  exact ⟨Nat.le_refl _, Nat.le_refl _, Nat.le_refl _⟩

theorem cost_split {K : Type} (ops : List (WOp K)) : total callBytes ops = total listCost ops + total netCost ops := by
  induction ops with
  | nil => rfl
  | cons op ops ih =>
    have : callBytes op = listCost op + netCost op := by cases op <;> simp [listCost, netCost]
    simp only [total]
    omega

theorem length_netRecords (junk : Nat → Byte × Byte × Byte × Byte) (l : List Network) : ∀ k, (netRecords junk k l).length = 12 * l.length := by
  induction l with
  | nil => intro k; rfl
  | cons n l ih => intro k; simp [netRecords, netRecord, be32, be16, ih]; omega

theorem length_nodes (l : List NodeRec) : (l.flatMap nodeBytes).length = 12 * l.length := by
  induction l with
  | nil => rfl
  | cons n l ih => rw [List.flatMap_cons, List.length_append, ih]; simp [nodeBytes, be32]; omega

theorem length_padding (off : Nat) : (padding off).length ≤ 4095 := by
  simp only [padding, List.length_replicate, pageSize]
  omega

/-- The sections of the file for a history of calls. -/
theorem sections_size {K : Type} {ctz0 : Nat} (h0 : 8 ≤ ctz0) {key1 key2 : Option K} {ops : List (WOp K)} {w w1 : Writer K}
    (h : Writes ctz0 key1 key2 ops w) {e : WEnv K} (he : e.ctz0 = ctz0) {s : Sections}
    (hs : writeSections e w = .ok (s, w1)) :
    s.ases.length + s.tree.length + s.nets.length + s.countries.length + s.pool.length ≤
      13 + (ops.countP IsWrite + 1) * total callBytes ops := by
  have hi := winv h
  have hwf := (Props.reach_wf ctz0 h0 hi.reach).1
  obtain ⟨-, hlist, hnets⟩ := limits h0 h
  have hperm := asListSort_perm w.ases
  obtain ⟨ss, p1, -, -, -⟩ := hi.pool
  obtain ⟨-, -, -, -, hpool⟩ := writeSections_parts hs
  unfold writeSections at hs
  simp only at hs
  split at hs
  · cases hs
  rename_i asBytes pool1 h1
  split at hs
  · cases hs
  rename_i t ht
  split at hs
  · cases hs
  rename_i recs nets hb
  split at hs
  · cases hs
  rename_i ctBytes pool2 h2
  cases hs
  obtain ⟨r1, ss1, rfl, b1, b2, b3, -⟩ := writeAses_spec _ p1 (fun a ha => hi.names a (hperm.subset ha)) h1
  obtain ⟨r2, ss2, rfl, c1, c2, -, -⟩ := writeCountries_spec _ b3 rfl (fun c hc => (hi.cgood c hc).name) h2
  rw [he] at ht
  obtain ⟨d1, d2, d3⟩ := cleanup_total h0 _ hwf ht
  obtain ⟨recs', nets', hb', -, e1, e2, -⟩ := bfs_spec (t := t) (by rintro rfl; exact d3.elim)
  rw [hb] at hb'
  cases hb'
  have e3 := prunedRoot_size d2 d3
  rw [cost_split, Nat.mul_add]
  have hmul : total netCost ops ≤ (ops.countP IsWrite + 1) * total netCost ops := Nat.le_mul_of_pos_left _ (by omega)
  simp only [length_netRecords, length_nodes]
  rw [e1, e2.length_eq, records_length b1, records_length c1, b2, c2, hperm.length_eq]
  unfold listBytes at hlist
  rw [total_const_add (fun a : AS => stringBytes a.name), total_const_add (fun a : Country => stringBytes a.name)] at hlist
  simp only at hpool
  simp only [asSize, countrySize]
  omega

end Loc
