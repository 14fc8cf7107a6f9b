import Verif.Lemmas.Dfs
/-
The search of the network enumerator ends in every database, whatever its nodes are.
-/
namespace Loc

/-- No node was expanded twice, and only nodes of the database. -/
structure GInv (db : Db) (e : NetEnum) : Prop where
  nodup : e.visited.Nodup
  range : ∀ i ∈ e.visited, i < db.nodeCount

theorem GInv.length {db : Db} {e : NetEnum} (h : GInv db e) : e.visited.length ≤ db.nodeCount := by
  have := nodup_length_le h.nodup (m := List.range db.nodeCount) (fun i hi => List.mem_range.mpr (h.range i hi))
  simpa using this

theorem pushNode_cases {db : Db} {nodes : List StackNode} {off : Nat} {b : Bool} {d : Nat} :
    pushNode db nodes off b d = .error .oob ∨ pushNode db nodes off b d = .ok none ∨
    ∃ l, pushNode db nodes off b d = .ok (some l) ∧ l.length ≤ nodes.length + 1 := by
  unfold pushNode
  split
  · exact .inr (.inr ⟨_, rfl, by omega⟩)
  split
  · exact .inr (.inl rfl)
  split
  · exact .inr (.inl rfl)
  split
  · exact .inl rfl
  · exact .inr (.inr ⟨_, rfl, by simp⟩)

theorem dbObject_ne (file : Bytes) (base size n : Nat) {y : Fault} (h : dbObject file base size n = .error y) : y = .eof := by
  unfold dbObject at h
  split at h
  · cases h
  · split at h
    · rename_i e hr
      cases h
      unfold rd at hr
      split at hr
      · cases hr
      · cases hr; rfl
    · cases h

/-- No read of the file diverges. -/
theorem fetchNode_ne (db : Db) (i : Nat) : fetchNode db i ≠ .error .diverge := by
  unfold fetchNode
  cases h : dbObject db.file db.nodeOff nodeSize i with
  | error y => rw [dbObject_ne _ _ _ _ h]; intro h; cases h
  | ok b => cases b <;> (intro h; cases h)

theorem networkFromRecord_ne (a : Addr) (p : Nat) (b : Bytes) : networkFromRecord a p b ≠ .error .diverge := by
  unfold networkFromRecord
  split
  · simp only
    split
    · intro h; cases h
    · split <;> (intro h; cases h)
  · intro h; cases h

theorem fetchNetwork_ne (db : Db) (a : Addr) (p i : Nat) : fetchNetwork db a p i ≠ .error .diverge := by
  unfold fetchNetwork
  split
  · intro h; cases h
  cases h : dbObject db.file db.netOff netSize i with
  | error y => rw [dbObject_ne _ _ _ _ h]; intro h; cases h
  | ok b =>
    cases b with
    | none => intro h; cases h
    | some b => exact networkFromRecord_ne a p b

/-- How many networks an enumerator can still return. -/
def left (db : Db) (e : NetEnum) : Nat := e.stack.length + (db.nodeCount - e.visited.length)

/-- What a search does to the counters. -/
theorem dfs_ends (db : Db) (filter : Bool) : ∀ (fuel : Nat) (e : NetEnum), GInv db e → work db e < fuel →
    (dfsLoop db filter fuel e ≠ .error .diverge) ∧ ∀ x e', dfsLoop db filter fuel e = .ok (x, e') → GInv db e' ∧ e'.stack = e.stack ∧
      ((x = .done ∧ e'.nodes = []) ∨ (x ≠ .done ∧ e.visited.length < e'.visited.length)) := by
  intro fuel
  induction fuel with
  | zero => intro e _ h; omega
  | succ fuel ih =>
    intro e hi hf
    unfold work at hf
    rw [dfsLoop]
    cases hn : e.nodes with
    | nil =>
      refine ⟨(by intro h; cases h), ?_⟩
      intro x e' h
      cases h
      exact ⟨hi, rfl, .inl ⟨rfl, hn⟩⟩
    | cons nd rest =>
      rw [hn, List.length_cons] at hf
      simp only
      by_cases h1 : nd.offset ≥ db.nodeCount
      · rw [if_pos h1]
        exact ⟨(by intro h; cases h), fun x e' h => by cases h⟩
      rw [if_neg h1]
      by_cases h2 : nd.offset ∈ e.visited
      · rw [if_pos h2]
        have := ih { e with nodes := rest } ⟨hi.nodup, hi.range⟩ (by unfold work; simp only; omega)
        exact this
      rw [if_neg h2]
      by_cases h3 : nd.depth - 1 ≥ 128
      · rw [if_pos h3]
        exact ⟨(by intro h; cases h), fun x e' h => by cases h⟩
      rw [if_neg h3]
      have hi' : ∀ (a : Addr) (nodes : List StackNode), GInv db { e with address := a, visited := nd.offset :: e.visited, nodes := nodes } :=
        fun a nodes => ⟨List.nodup_cons.mpr ⟨h2, hi.nodup⟩, fun i hm => by
          rcases List.mem_cons.mp hm with rfl | hm
          · omega
          · exact hi.range i hm⟩
      have hlen : e.visited.length + 1 ≤ db.nodeCount := by
        have := (hi' e.address []).length
        simpa using this
      have hfail : ∀ (a : Addr) (nodes : List StackNode),
          ((.ok (.failed, { e with address := a, visited := nd.offset :: e.visited, nodes := nodes }) : Res (Next Network × NetEnum)) ≠ .error .diverge) ∧
          ∀ x e', (.ok (.failed, { e with address := a, visited := nd.offset :: e.visited, nodes := nodes }) : Res (Next Network × NetEnum)) = .ok (x, e') →
            GInv db e' ∧ e'.stack = e.stack ∧ ((x = .done ∧ e'.nodes = []) ∨ (x ≠ .done ∧ e.visited.length < e'.visited.length)) := by
        intro a nodes
        refine ⟨(by intro h; cases h), ?_⟩
        intro x e' h
        cases h
        exact ⟨hi' a nodes, rfl, .inr ⟨(by intro h; cases h), by simp⟩⟩
      have herr : ∀ y : Fault, y ≠ .diverge → ((.error y : Res (Next Network × NetEnum)) ≠ .error .diverge) ∧
          ∀ x e', (.error y : Res (Next Network × NetEnum)) = .ok (x, e') →
            GInv db e' ∧ e'.stack = e.stack ∧ ((x = .done ∧ e'.nodes = []) ∨ (x ≠ .done ∧ e.visited.length < e'.visited.length)) :=
        fun y hy => ⟨(by intro h; cases h; exact hy rfl), fun x e' h => by cases h⟩
      cases hfn : fetchNode db nd.offset with
      | error y => exact herr y (fun h => fetchNode_ne db nd.offset (by rw [hfn, h]))
      | ok r =>
        cases r with
        | none => simp only; rw [← hn]; exact hfail _ e.nodes
        | some r =>
          simp only
          rcases pushNode_cases (db := db) (nodes := nd :: rest) (off := r.one) (b := true) (d := nd.depth + 1) with h | h | ⟨l1, h, hl1⟩
          · rw [h]; exact herr .oob (by intro h; cases h)
          · rw [h]; simp only; rw [← hn]; exact hfail _ e.nodes
          · rw [h]
            simp only
            rcases pushNode_cases (db := db) (nodes := l1) (off := r.zero) (b := false) (d := nd.depth + 1) with h | h | ⟨l2, h, hl2⟩
            · rw [h]; exact herr .oob (by intro h; cases h)
            · rw [h]; exact hfail _ l1
            · rw [h]
              simp only
              have hcont := ih { e with address := setBit e.address (nd.depth - 1) nd.i, visited := nd.offset :: e.visited, nodes := l2 } (hi' _ _) (by
                unfold work
                simp only [List.length_cons] at hl1 ⊢
                omega)
              have hcont' := fun x e' h => (hcont.2 x e' h)
              have hgo : (dfsLoop db filter fuel { e with address := setBit e.address (nd.depth - 1) nd.i, visited := nd.offset :: e.visited, nodes := l2 } ≠ .error .diverge) ∧
                  ∀ x e', dfsLoop db filter fuel { e with address := setBit e.address (nd.depth - 1) nd.i, visited := nd.offset :: e.visited, nodes := l2 } = .ok (x, e') →
                  GInv db e' ∧ e'.stack = e.stack ∧ ((x = .done ∧ e'.nodes = []) ∨ (x ≠ .done ∧ e.visited.length < e'.visited.length)) := by
                refine ⟨hcont.1, fun x e' h => ?_⟩
                obtain ⟨g1, g2, g3⟩ := hcont.2 x e' h
                refine ⟨g1, g2, g3.imp_right fun ⟨g4, g5⟩ => ⟨g4, ?_⟩⟩
                simp only [List.length_cons] at g5
                omega
              split
              · cases hfe : fetchNetwork db (setBit e.address (nd.depth - 1) nd.i) nd.depth r.net with
                | error y => exact herr y (fun h => fetchNetwork_ne db _ _ _ (by rw [hfe, h]))
                | ok y =>
                  cases y with
                  | soft => exact hfail _ l2
                  | hard =>
                    refine ⟨(by intro h; cases h), ?_⟩
                    intro x e' h
                    cases h
                    exact ⟨hi' _ _, rfl, .inr ⟨(by intro h; cases h), by simp⟩⟩
                  | got n =>
                    simp only
                    split
                    · refine ⟨(by intro h; cases h), ?_⟩
                      intro x e' h
                      cases h
                      exact ⟨hi' _ _, rfl, .inr ⟨(by intro h; cases h), by simp⟩⟩
                    · exact hgo
              · exact hgo

theorem popMatching_length (f : Filter) (filter : Bool) (l : NetList) :
    (∀ n l', popMatching f filter l = (some n, l') → l'.length < l.length) ∧ (∀ l', popMatching f filter l = (none, l') → l' = []) := by
  induction l with
  | nil => exact ⟨fun n l' h => (by cases h), fun l' h => (by cases h; rfl)⟩
  | cons m l ih =>
    unfold popMatching
    split
    · exact ⟨fun n l' h => (by cases h; simp), fun l' h => (by cases h)⟩
    · refine ⟨fun n l' h => ?_, ih.2⟩
      have := ih.1 n l' h
      simp only [List.length_cons]
      omega

/-- One call of `next_network`, with or without the filter. -/
theorem next_ends (db : Db) (filter : Bool) (e : NetEnum) (hi : GInv db e) :
    nextNetworkRaw db filter e ≠ .error .diverge ∧ ∀ x e', nextNetworkRaw db filter e = .ok (x, e') → GInv db e' ∧
      ((x = .done ∧ e'.nodes = [] ∧ e'.stack = []) ∨ (x ≠ .done ∧ left db e' < left db e)) := by
  unfold nextNetworkRaw
  obtain ⟨p1, p2⟩ := popMatching_length e.filter filter e.stack
  rcases hp : popMatching e.filter filter e.stack with ⟨_ | n, l⟩
  · simp only
    have hl := p2 l hp
    subst hl
    obtain ⟨d1, d2⟩ := dfs_ends db filter (dfsFuel db e) { e with stack := [] } ⟨hi.nodup, hi.range⟩ (by unfold work dfsFuel; simp only; omega)
    refine ⟨d1, fun x e' h => ?_⟩
    obtain ⟨g1, g2, g3⟩ := d2 x e' h
    refine ⟨g1, ?_⟩
    rcases g3 with ⟨g4, g5⟩ | ⟨g4, g5⟩
    · exact .inl ⟨g4, g5, g2⟩
    · refine .inr ⟨g4, ?_⟩
      have := g1.length
      unfold left
      rw [g2]
      simp only [List.length_nil] at g5 ⊢
      omega
  · simp only
    have := p1 n l hp
    refine ⟨(by intro h; cases h), fun x e' h => ?_⟩
    cases h
    refine ⟨⟨hi.nodup, hi.range⟩, .inr ⟨(by intro h; cases h), ?_⟩⟩
    unfold left
    simp only
    omega

end Loc
