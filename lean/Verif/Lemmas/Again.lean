import Verif.Lemmas.Join
import Verif.Lemmas.Order
/-
Cleaning up and writing a second time.
-/
namespace Loc
open Spec

/-! ### Trees -/

theorem pruned_nil {t : Tree} (h : Pruned t) (hl : ∀ u, look t u = none) : t = .nil := by
  induction t with
  | nil => rfl
  | node d net z o ihz iho =>
    obtain ⟨-, h1, hz, ho⟩ := h
    exfalso
    rcases h1 with h1 | h1 | h1
    · have := hl []
      simp only [look] at this
      rw [this] at h1; cases h1
    · exact h1 (ihz hz (fun u => hl (false :: u)))
    · exact h1 (iho ho (fun u => hl (true :: u)))

/-- A pruned tree is determined by its networks. -/
theorem pruned_ext {t : Tree} : ∀ {s : Tree}, Pruned t → Pruned s → (∀ u, look t u = look s u) → t = s := by
  induction t with
  | nil =>
    intro s _ hs hl
    exact (pruned_nil hs (fun u => by rw [← hl u]; simp [look])).symm
  | node d net z o ihz iho =>
    intro s ht hs hl
    cases s with
    | nil => exact pruned_nil ht (fun u => by rw [hl u]; simp [look])
    | node d' net' z' o' =>
      obtain ⟨a1, -, a2, a3⟩ := ht
      obtain ⟨b1, -, b2, b3⟩ := hs
      have e0 : net = net' := hl []
      rw [a1, b1, e0, ihz a2 b2 (fun u => hl (false :: u)), iho a3 b3 (fun u => hl (true :: u))]

theorem prunedRoot_ext {t s : Tree} (ht : PrunedRoot t) (hs : PrunedRoot s) (hl : look t = look s) : t = s := by
  cases t with
  | nil => exact ht.elim
  | node d net z o =>
    cases s with
    | nil => exact hs.elim
    | node d' net' z' o' =>
      obtain ⟨a1, a2, a3⟩ := ht
      obtain ⟨b1, b2, b3⟩ := hs
      have e0 : net = net' := congrFun hl []
      rw [a1, b1, e0, pruned_ext a2 b2 (fun u => congrFun hl (false :: u)), pruned_ext a3 b3 (fun u => congrFun hl (true :: u))]

/-- Where nothing can be merged nothing changes. -/
theorem MergeStar.idle {f g : PathMap} (a : MergeStar f g)
    (h : ∀ v n0 n1 m, f (v ++ [false]) = some n0 → f (v ++ [true]) = some n1 → raw n0 = raw n1 → n0.family = n1.family →
      Block m → path m = v → f v ≠ none) : g = f := by
  cases a with
  | refl => rfl
  | head h1 _ =>
    obtain ⟨v, n0, n1, m, -, a2, a3, a4, a5, a6, a7, a8, ⟨a9, a10⟩, -⟩ := h1
    exact absurd a2 (h v n0 n1 m a3 a4 (a5.symm.trans a6) (a9.symm.trans a10) a7 a8)

/-- Merging never makes an IPv6 network with IPv4 addresses in it, unless there was one. -/
theorem MergeStar.around {f g : PathMap} (a : MergeStar f g)
    (hb : ∀ u n, f u = some n → Block n ∧ path n = u) (h : ∀ u, Around u → f u = none) :
    ∀ u, Around u → g u = none := by
  induction a with
  | refl => exact h
  | @head f g _ h1 _ ih =>
    obtain ⟨v, n0, n1, m, a1, a2, a3, a4, a5, a6, a7, a8, ⟨a9, a10⟩, ag⟩ := h1
    have hfam : n0.family = n1.family := a9.symm.trans a10
    obtain ⟨b0, p0⟩ := hb _ _ a3
    obtain ⟨b1, p1⟩ := hb _ _ a4
    have hnot : ¬ Around v := by
      rintro ⟨⟨r, hr⟩, h2⟩
      cases r with
      | nil => exact h2 (by simpa using hr)
      | cons b r =>
        have key : ∀ (c : Bool) (k : Network), f (v ++ [c]) = some k → b = c → r = [] := by
          intro c k hk hbc
          cases r with
          | nil => rfl
          | cons b' r =>
            subst hbc
            have : Around (v ++ [b]) := by
              refine ⟨⟨b' :: r, by simpa using hr⟩, ?_⟩
              intro e
              have l1 := congrArg List.length hr
              have l2 := congrArg List.length e
              simp at l1 l2
              omega
            rw [h _ this] at hk; cases hk
        have hnil : r = [] := by
          cases b with
          | false => exact key false n0 a3 rfl
          | true => exact key true n1 a4 rfl
        subst hnil
        have f0 := block_v4_iff b0
        have f1 := block_v4_iff b1
        rw [hfam, f1, p0, p1, ← hr] at f0
        have q : ∀ c d : Bool, (v ++ [c]) <+: (v ++ [d]) ↔ c = d := by
          intro c d
          constructor
          · intro hp
            have := hp.eq_of_length (by simp)
            simpa using this
          · rintro rfl; exact List.prefix_refl _
        rw [q, q] at f0
        cases b <;> simp at f0
    refine ih ?_ ?_
    · intro u n hu
      rw [ag] at hu
      split at hu
      · rename_i e
        cases hu
        exact ⟨a7, a8.trans e.symm⟩
      · split at hu
        · cases hu
        · exact hb u n hu
    · intro u hu
      rw [ag, if_neg (by rintro rfl; exact hnot hu)]
      split
      · rfl
      · exact h u hu

/-! ### The pool -/

/-- `s` is found at `off`. -/
def First (ss : List CStr) (off : Nat) (s : CStr) : Prop :=
  ∃ c d, ss = c ++ s :: d ∧ s ∉ c ∧ off = (joinStr c).length

theorem First.append {ss : List CStr} {off : Nat} {s : CStr} (h : First ss off s) (r : List CStr) : First (ss ++ r) off s := by
  obtain ⟨c, d, h1, h2, h3⟩ := h
  exact ⟨c, d ++ r, by simp [h1], h2, h3⟩

theorem first_unique {s : CStr} : ∀ {c c' d d' : List CStr}, c ++ s :: d = c' ++ s :: d' → s ∉ c → s ∉ c' → c = c' := by
  intro c
  induction c with
  | nil =>
    intro c' d d' h _ h2
    cases c' with
    | nil => rfl
    | cons x c' =>
      simp only [List.nil_append, List.cons_append, List.cons.injEq] at h
      exact absurd (by rw [h.1]; exact List.mem_cons_self) h2
  | cons y c ih =>
    intro c' d d' h h1 h2
    cases c' with
    | nil =>
      simp only [List.nil_append, List.cons_append, List.cons.injEq] at h
      exact absurd (by rw [h.1]; exact List.mem_cons_self) h1
    | cons x c' =>
      simp only [List.cons_append, List.cons.injEq] at h
      rw [h.1, ih h.2 (fun hm => h1 (List.mem_cons_of_mem _ hm)) (fun hm => h2 (List.mem_cons_of_mem _ hm))]

theorem poolAdd_first {p p' : Pool} {ss : List CStr} {s : CStr} {off : Nat} (h : PoolOk p ss) (hs : NoNul s) (hne : s ≠ [])
    (e : poolAdd p s = .ok (off, p')) : ∃ ss', PoolOk p' (ss ++ ss') ∧ First (ss ++ ss') off s := by
  rcases poolAdd_spec h s hs with ⟨-, c, d, h1, h2, h3⟩ | ⟨ho, q, h1, -, -, h3⟩ | ⟨-, h3⟩
  · rw [h3] at e; cases e
    exact ⟨[], by simpa using h, c, d, by simp [h1], h2, rfl⟩
  · rw [h3] at e; cases e
    refine ⟨[s], h1, ss, [], rfl, ?_, rfl⟩
    rcases ho with ho | ho
    · exact absurd ho hne
    · exact ho
  · rw [h3] at e; cases e

theorem poolAdd_found {p : Pool} {ss : List CStr} {s : CStr} {off : Nat} (h : PoolOk p ss) (hne : s ≠ [])
    (hf : First ss off s) : poolAdd p s = .ok (off, p) := by
  obtain ⟨c, d, h1, h2, h3⟩ := hf
  rcases poolFind_spec h s hne with ⟨h4, -⟩ | ⟨c', d', h4, h5, h6⟩
  · exact absurd (by rw [h1]; simp) h4
  · have := first_unique (h1.symm.trans h4) h2 h5
    subst this
    unfold poolAdd
    rw [h6, h3]

/-! ### Sections -/

theorem writeAses_again (l : List AS) : ∀ {p p' : Pool} {ss : List CStr} {bs : Bytes}, PoolOk p ss →
    (∀ a ∈ l, StrOk a.name ∧ a.name ≠ none ∧ a.name ≠ some []) → writeAses l p = .ok (bs, p') →
    ∃ ss', PoolOk p' (ss ++ ss') ∧ ∀ q rest, PoolOk q (ss ++ ss' ++ rest) → writeAses l q = .ok (bs, q) := by
  induction l with
  | nil =>
    intro p p' ss bs hp _ e
    unfold writeAses at e; cases e
    exact ⟨[], by simpa using hp, fun q _ _ => rfl⟩
  | cons a l ih =>
    intro p p' ss bs hp hn e
    obtain ⟨n1, n2, n3⟩ := hn a (by simp)
    obtain ⟨s, hs⟩ : ∃ s, a.name = some s := by
      cases h : a.name with
      | none => exact absurd h n2
      | some s => exact ⟨s, rfl⟩
    have hne : s ≠ [] := by rintro rfl; exact n3 hs
    have hv : ∀ p, writeAses (a :: l) p = match asRecord a p with
      | .error e => .error e
      | .ok (b, p) =>
        match writeAses l p with
        | .error e => .error e
        | .ok (bs, p) => .ok (b ++ bs, p) := fun p => rfl
    have hr : ∀ p, asRecord a p = match poolAdd p s with
      | .error e => .error e
      | .ok (off, p) => .ok (be32 a.number.toNat ++ be32 off, p) := by
      intro p; unfold asRecord; rw [hs]; cases poolAdd p s <;> rfl
    rw [hv, hr] at e
    cases hq : poolAdd p s with
    | error x => rw [hq] at e; cases e
    | ok r =>
      obtain ⟨off, p1⟩ := r
      rw [hq] at e
      simp only at e
      obtain ⟨s1, k1, k2⟩ := poolAdd_first hp (n1 s hs) hne hq
      cases hl : writeAses l p1 with
      | error x => rw [hl] at e; cases e
      | ok r =>
        obtain ⟨bs', p2⟩ := r
        rw [hl] at e
        cases e
        obtain ⟨s2, k3, k4⟩ := ih k1 (fun x hx => hn x (by simp [hx])) hl
        refine ⟨s1 ++ s2, by simpa using k3, ?_⟩
        intro q rest hpq
        have hpq' : PoolOk q (ss ++ s1 ++ (s2 ++ rest)) := by simpa using hpq
        rw [hv, hr, poolAdd_found hpq' hne (k2.append _)]
        simp only
        rw [k4 q rest (by simpa using hpq)]

theorem writeCountries_again (l : List Country) : ∀ {prev : Byte × Byte} {p p' : Pool} {ss : List CStr} {bs : Bytes}, PoolOk p ss →
    (∀ c ∈ l, StrOk c.name ∧ c.name ≠ some []) → writeCountries l prev p = .ok (bs, p') →
    ∃ ss', PoolOk p' (ss ++ ss') ∧ ∀ q rest, PoolOk q (ss ++ ss' ++ rest) → writeCountries l prev q = .ok (bs, q) := by
  induction l with
  | nil =>
    intro prev p p' ss bs hp _ e
    unfold writeCountries at e; cases e
    exact ⟨[], by simpa using hp, fun q _ _ => rfl⟩
  | cons c l ih =>
    intro prev p p' ss bs hp hn e
    obtain ⟨n1, n2⟩ := hn c (by simp)
    have hv : ∀ p, writeCountries (c :: l) prev p = match countryRecord c prev p with
      | .error e => .error e
      | .ok (b, prev, p) =>
        match writeCountries l prev p with
        | .error e => .error e
        | .ok (bs, p) => .ok (b ++ bs, p) := fun p => rfl
    generalize hk : (if c.k0 ≠ 0 then (c.k0, c.k1) else prev) = k
    cases hs : c.name with
    | none =>
      have hr : ∀ p, countryRecord c prev p = .ok ([c.c0, c.c1, k.1, k.2] ++ be32 0, k, p) := by
        intro p; unfold countryRecord; rw [hs, hk]
      rw [hv, hr] at e
      simp only at e
      cases hl : writeCountries l k p with
      | error x => rw [hl] at e; cases e
      | ok r =>
        obtain ⟨bs', p2⟩ := r
        rw [hl] at e
        cases e
        obtain ⟨s2, k3, k4⟩ := ih hp (fun x hx => hn x (by simp [hx])) hl
        refine ⟨s2, k3, ?_⟩
        intro q rest hpq
        rw [hv, hr]
        simp only
        rw [k4 q rest hpq]
    | some s =>
      have hne : s ≠ [] := by rintro rfl; exact n2 hs
      have hr : ∀ p, countryRecord c prev p = match poolAdd p s with
        | .error e => .error e
        | .ok (off, p) => .ok ([c.c0, c.c1, k.1, k.2] ++ be32 off, k, p) := by
        intro p; unfold countryRecord; rw [hs, hk]; simp only; cases poolAdd p s <;> rfl
      rw [hv, hr] at e
      cases hq : poolAdd p s with
      | error x => rw [hq] at e; cases e
      | ok r =>
        obtain ⟨off, p1⟩ := r
        rw [hq] at e
        simp only at e
        obtain ⟨s1, k1, k2⟩ := poolAdd_first hp (n1 s hs) hne hq
        cases hl : writeCountries l k p1 with
        | error x => rw [hl] at e; cases e
        | ok r =>
          obtain ⟨bs', p2⟩ := r
          rw [hl] at e
          cases e
          obtain ⟨s2, k3, k4⟩ := ih k1 (fun x hx => hn x (by simp [hx])) hl
          refine ⟨s1 ++ s2, by simpa using k3, ?_⟩
          intro q rest hpq
          have hpq' : PoolOk q (ss ++ s1 ++ (s2 ++ rest)) := by simpa using hpq
          rw [hv, hr, poolAdd_found hpq' hne (k2.append _)]
          simp only
          rw [k4 q rest (by simpa using hpq)]

theorem signWith_again {K : Type} {sign : K → Bytes → SignOut} {key : Option K} {msg buf buf' : Bytes} {len len' : Nat}
    (e : signWith sign key msg buf len = .ok (buf', len')) : signWith sign key msg buf' len' = .ok (buf', len') := by
  cases key with
  | none => rfl
  | some k =>
    simp only [signWith, createSignature] at e ⊢
    cases hs : sign k msg with
    | ok s =>
      rw [hs] at e
      simp only at e ⊢
      by_cases hl : s.length ≤ sigMax
      · rw [if_pos hl] at e ⊢
        cases e
        rw [List.drop_left]
      · rw [if_neg hl] at e; cases e
    | early r =>
      rw [hs] at e
      simp only at e ⊢
      by_cases hr : r = 0
      · rw [if_pos hr] at e ⊢
        cases e; rfl
      · rw [if_neg hr] at e; cases e
    | late => rw [hs] at e; cases e

/-- The sections written from a writer that has been written already. -/
theorem writeSections_again {K : Type} {e : WEnv K} {w w1 : Writer K} {s : Sections} {ss : List CStr} (hp : PoolOk w.pool ss)
    (hnd : (w.ases.map (·.number)).Nodup) (hn : ∀ a ∈ w.ases, StrOk a.name ∧ a.name ≠ none ∧ a.name ≠ some [])
    (hc : ∀ c ∈ w.countries, StrOk c.name ∧ c.name ≠ some []) (h : writeSections e w = .ok (s, w1))
    (ht : treeCleanup e.ctz0 e.reread w1.networks = .ok w1.networks) : writeSections e w1 = .ok (s, w1) := by
  unfold writeSections at h
  simp only at h
  cases h1 : writeAses (asListSort w.ases) w.pool with
  | error x => rw [h1] at h; cases h
  | ok r =>
    obtain ⟨ab, p1⟩ := r
    rw [h1] at h
    simp only at h
    cases h2 : treeCleanup e.ctz0 e.reread w.networks with
    | error x => rw [h2] at h; cases h
    | ok t =>
      rw [h2] at h
      simp only at h
      cases h3 : bfsLoop (t.size + 1) [t] 0 0 with
      | error x => rw [h3] at h; cases h
      | ok r =>
        obtain ⟨recs, nets⟩ := r
        rw [h3] at h
        simp only at h
        cases h4 : writeCountries w.countries e.junkContinent p1 with
        | error x => rw [h4] at h; cases h
        | ok r =>
          obtain ⟨cb, p2⟩ := r
          rw [h4] at h
          cases h
          have hn' : ∀ a ∈ asListSort w.ases, StrOk a.name ∧ a.name ≠ none ∧ a.name ≠ some [] :=
            fun a ha => hn a ((asListSort_perm w.ases).subset ha)
          obtain ⟨s1, k1, k2⟩ := writeAses_again _ hp hn' h1
          obtain ⟨s2, k3, k4⟩ := writeCountries_again _ k1 hc h4
          have e1 : asListSort (asListSort w.ases) = asListSort w.ases := (sort_eq (asListSort_perm w.ases).symm hnd).symm
          have e2 := k2 p2 s2 k3
          have e3 := k4 p2 [] (by simpa using k3)
          unfold writeSections
          simp only
          rw [e1, e2]
          simp only
          simp only at ht
          rw [ht]
          simp only
          rw [h3]
          simp only
          rw [e3]

end Loc
