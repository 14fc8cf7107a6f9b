import Verif.Lemmas.Terminate
import Verif.Spec.Safe
import Verif.Spec.Enum
/-
What reading an arbitrary database can do wrong.
-/
namespace Loc
open Loc.Spec

/-- Objects fit into the file, and every string ends in it. -/
structure InFile (db : Db) : Prop where
  len : 12 ≤ db.file.length
  len64 : db.file.length < 2 ^ 64
  pool : ∀ off < db.poolLen, ∃ i, db.poolOff + off ≤ i ∧ db.file[i]? = some 0

/-- Nodes and their distance from the first. -/
inductive Deep (db : Db) : Nat → Nat → Prop
  | root : Deep db 0 0
  | step {k i j : Nat} {r : NodeRec} : Deep db k i → fetchNode db i = .ok (some r) → (j = r.zero ∨ j = r.one) →
      0 < j → j < db.nodeCount → Deep db (k + 1) j

structure Flat (db : Db) : Prop where
  pos : 0 < db.nodeCount
  depth : ∀ k i, Deep db k i → k < 128

/-- What goes wrong is explained by the file. -/
def Fine (db : Db) (y : Fault) : Prop := (y = .eof ∧ ¬ InFile db) ∨ (y = .oob ∧ ¬ Flat db)

/-- A call that only reads the file. -/
def Reads {α : Type} (db : Db) (r : Res α) : Prop := ∀ y, r = .error y → y = .eof ∧ ¬ InFile db

theorem Reads.fine {α : Type} {db : Db} {r : Res α} (h : Reads db r) {y : Fault} (hy : r = .error y) : Fine db y :=
  .inl (h y hy)

theorem Reads.ok {α : Type} {db : Db} (x : α) : Reads db (.ok x) := fun _ h => by cases h

theorem dbObject_reads (db : Db) (base size n : Nat) (hs : size ≤ 12) : Reads db (dbObject db.file base size n) := by
  intro y h
  refine ⟨dbObject_ne _ _ _ _ h, fun hf => ?_⟩
  have h1 := hf.len
  have h2 := hf.len64
  unfold dbObject at h
  split at h
  · cases h
  rename_i hc
  have hc : checkBoundaries db.file.length (base + n * size) size = true := by simpa using hc
  unfold checkBoundaries at hc
  have hc := of_decide_eq_true hc
  have hm : (db.file.length + 2 ^ 64 - size) % 2 ^ 64 = db.file.length - size := by
    rw [show db.file.length + 2 ^ 64 - size = (db.file.length - size) + 2 ^ 64 by omega, Nat.add_mod_right, Nat.mod_eq_of_lt (by omega)]
  rw [hm] at hc
  unfold rd at h
  rw [if_pos (by omega)] at h
  cases h

theorem dbObject_length {file : Bytes} {base size n : Nat} {b : Bytes} (h : dbObject file base size n = .ok (some b)) : b.length = size := by
  unfold dbObject at h
  split at h
  · cases h
  unfold rd at h
  split at h
  · cases h
  · rename_i h2
    split at h2
    · cases h2
      cases h
      rw [List.length_take, List.length_drop]
      omega
    · cases h2

theorem takeWhile_lt {l : Bytes} {i : Nat} (h : l[i]? = some 0) : (l.takeWhile (· != 0)).length < l.length := by
  induction l generalizing i with
  | nil => simp at h
  | cons a l ih =>
    rw [List.takeWhile_cons]
    split
    · rename_i ha
      cases i with
      | zero =>
        rw [List.getElem?_cons_zero] at h
        cases h
        simp at ha
      | succ i =>
        rw [List.getElem?_cons_succ] at h
        have := ih h
        simp only [List.length_cons]
        omega
    · simp

theorem takeWhile_all {l : Bytes} (h : ∀ i : Nat, l[i]? ≠ some 0) : ¬ (l.takeWhile (· != 0)).length < l.length := by
  induction l with
  | nil => simp
  | cons a l ih =>
    rw [List.takeWhile_cons]
    have ha : a ≠ 0 := fun ha => h 0 (by rw [List.getElem?_cons_zero, ha])
    rw [if_pos (by simpa using ha)]
    have := ih fun i hi => h (i + 1) (by rw [List.getElem?_cons_succ]; exact hi)
    simp only [List.length_cons]
    omega

theorem cstrAt_eof_iff (f : Bytes) (off : Nat) : (cstrAt f off = .error .eof ↔ ∀ i, off ≤ i → f[i]? ≠ some 0) ∧
    ∀ y, cstrAt f off = .error y → y = .eof := by
  unfold cstrAt
  simp only
  constructor
  · constructor
    · intro h i hi hz
      rw [if_pos (takeWhile_lt (i := i - off) (by rw [List.getElem?_drop]; rw [show off + (i - off) = i by omega]; exact hz))] at h
      cases h
    · intro h
      rw [if_neg (takeWhile_all fun i => by rw [List.getElem?_drop]; exact h _ (by omega))]
  · intro y h
    split at h
    · cases h
    · cases h; rfl

theorem dbString_reads (db : Db) (off : Nat) : Reads db (dbString db off) := by
  intro y h
  unfold dbString at h
  split at h
  · cases h
  rename_i hoff
  obtain ⟨h1, h2⟩ := cstrAt_eof_iff db.file (db.poolOff + off)
  cases hc : cstrAt db.file (db.poolOff + off) with
  | ok s => rw [hc] at h; cases h
  | error z =>
    rw [hc] at h
    have hz : z = y := by injection h
    subst hz
    obtain rfl := h2 z hc
    refine ⟨rfl, fun hf => ?_⟩
    obtain ⟨i, hi, h0⟩ := hf.pool off (by omega)
    exact h1.mp hc i hi h0

theorem fetchAs_reads (db : Db) (pos : Nat) : Reads db (fetchAs db pos) := by
  intro y h
  unfold fetchAs at h
  split at h
  · cases h
  cases ho : dbObject db.file db.asOff asSize pos with
  | error z => rw [ho] at h; cases h; exact dbObject_reads db _ _ _ (by decide) y ho
  | ok b =>
    rw [ho] at h
    cases b with
    | none => cases h
    | some b =>
      unfold asFromRecord at h
      simp only at h
      cases hs : dbString db (field b 4 4) with
      | error z => rw [hs] at h; cases h; exact dbString_reads db _ y hs
      | ok s => rw [hs] at h; cases h

theorem fetchCountry_reads (db : Db) (pos : Nat) : Reads db (fetchCountry db pos) := by
  intro y h
  unfold fetchCountry at h
  split at h
  · cases h
  cases ho : dbObject db.file db.countryOff countrySize pos with
  | error z => rw [ho] at h; cases h; exact dbObject_reads db _ _ _ (by decide) y ho
  | ok b =>
    rw [ho] at h
    cases b with
    | none => cases h
    | some b =>
      have hl := dbObject_length ho
      unfold countryFromRecord at h
      simp only at h
      match b, hl, h with
      | c0 :: c1 :: k0 :: k1 :: t, _, h =>
        simp only at h
        split at h
        · cases h
        · split at h
          · rename_i z hs
            cases h
            exact dbString_reads db _ _ hs
          · cases h
          · cases h

theorem fetchNode_reads (db : Db) (i : Nat) : Reads db (fetchNode db i) := by
  intro y h
  unfold fetchNode at h
  cases ho : dbObject db.file db.nodeOff nodeSize i with
  | error z => rw [ho] at h; cases h; exact dbObject_reads db _ _ _ (by decide) y ho
  | ok b => rw [ho] at h; cases b <;> cases h

theorem fetchNetwork_reads (db : Db) (a : Addr) (p pos : Nat) : Reads db (fetchNetwork db a p pos) := by
  intro y h
  unfold fetchNetwork at h
  split at h
  · cases h
  cases ho : dbObject db.file db.netOff netSize pos with
  | error z => rw [ho] at h; cases h; exact dbObject_reads db _ _ _ (by decide) y ho
  | ok b =>
    rw [ho] at h
    cases b with
    | none => cases h
    | some b =>
      have hl := dbObject_length ho
      unfold networkFromRecord at h
      simp only at h
      match b, hl, h with
      | c0 :: c1 :: t, _, h =>
        simp only at h
        split at h
        · cases h
        · split at h <;> cases h

/-! ### Searches -/

theorem getAsLoop_reads (db : Db) (number : BitVec 32) : ∀ (fuel : Nat) (lo hi : Int), hi - lo + 1 < fuel → lo ≤ hi + 1 →
    Reads db (getAsLoop db number fuel lo hi) := by
  intro fuel
  induction fuel with
  | zero => intro lo hi hf hlo; omega
  | succ fuel ih =>
    intro lo hi hf hlo y h
    unfold getAsLoop at h
    split at h
    · simp only at h
      cases hs : fetchAs db ((lo + hi) / 2).toNat with
      | error z => rw [hs] at h; cases h; exact fetchAs_reads db _ _ hs
      | ok a =>
        rw [hs] at h
        cases a with
        | none => cases h
        | some a =>
          simp only at h
          split at h
          · cases h
          split at h
          · exact ih _ _ (by omega) (by omega) y h
          · exact ih _ _ (by omega) (by omega) y h
    · cases h

theorem getAs_reads (db : Db) (number : BitVec 32) : Reads db (getAs db number) :=
  getAsLoop_reads db number _ _ _ (by omega) (by omega)

theorem getCountryLoop_reads (db : Db) (code : CStr) : ∀ (fuel : Nat) (lo hi : Int), hi - lo + 1 < fuel → lo ≤ hi + 1 →
    Reads db (getCountryLoop db code fuel lo hi) := by
  intro fuel
  induction fuel with
  | zero => intro lo hi hf hlo; omega
  | succ fuel ih =>
    intro lo hi hf hlo y h
    unfold getCountryLoop at h
    split at h
    · simp only at h
      cases hs : fetchCountry db ((lo + hi) / 2).toNat with
      | error z => rw [hs] at h; cases h; exact fetchCountry_reads db _ _ hs
      | ok a =>
        rw [hs] at h
        cases a with
        | none => cases h
        | some a =>
          simp only at h
          split at h
          · cases h
          split at h
          · exact ih _ _ (by omega) (by omega) y h
          · exact ih _ _ (by omega) (by omega) y h
    · cases h

theorem getCountry_reads (db : Db) (code : Option CStr) : Reads db (getCountry db code) := by
  unfold getCountry
  split
  · exact Reads.ok _
  · split
    · exact Reads.ok _
    · exact getCountryLoop_reads db _ _ _ _ (by omega) (by omega)

theorem nextAsLoop_reads (db : Db) (s : Option CStr) : ∀ (rem i : Nat), Reads db (nextAsLoop db s rem i) ∧
    ∀ x j, nextAsLoop db s rem i = .ok (x, j) → (x = .done ∧ j = 0) ∨ (i < j ∧ j ≤ i + rem) := by
  intro rem
  induction rem with
  | zero => intro i; exact ⟨Reads.ok _, fun x j h => (by cases h; exact .inl ⟨rfl, rfl⟩)⟩
  | succ rem ih =>
    intro i
    unfold nextAsLoop
    cases hs : fetchAs db i with
    | error z => exact ⟨fun y h => (by cases h; exact fetchAs_reads db _ _ hs), fun x j h => (by cases h)⟩
    | ok a =>
      cases a with
      | none => exact ⟨Reads.ok _, fun x j h => (by cases h; exact .inr ⟨by omega, by omega⟩)⟩
      | some a =>
        simp only
        split
        · exact ⟨Reads.ok _, fun x j h => (by cases h; exact .inr ⟨by omega, by omega⟩)⟩
        · refine ⟨(ih (i + 1)).1, fun x j h => ?_⟩
          rcases (ih (i + 1)).2 x j h with h | h
          · exact .inl h
          · exact .inr ⟨by omega, by omega⟩

theorem nextCountry_reads (db : Db) (i : Nat) : Reads db (nextCountry db i) ∧
    ∀ x j, nextCountry db i = .ok (x, j) → (x = .done ∧ j = 0) ∨ (i < j ∧ j ≤ db.countryCount) := by
  unfold nextCountry
  split
  · cases hs : fetchCountry db i with
    | error z => exact ⟨fun y h => (by cases h; exact fetchCountry_reads db _ _ hs), fun x j h => (by cases h)⟩
    | ok a =>
      cases a with
      | none => exact ⟨Reads.ok _, fun x j h => (by cases h; exact .inr ⟨by omega, by omega⟩)⟩
      | some a => exact ⟨Reads.ok _, fun x j h => (by cases h; exact .inr ⟨by omega, by omega⟩)⟩
  · exact ⟨Reads.ok _, fun x j h => (by cases h; exact .inl ⟨rfl, rfl⟩)⟩

/-- Draining an enumerator whose state is an index that grows up to a limit. -/
theorem drain_reads {α : Type} {db : Db} {next : Nat → Res (Next α × Nat)} {limit : Nat}
    (h1 : ∀ i, Reads db (next i)) (h2 : ∀ i x j, next i = .ok (x, j) → (x = .done ∧ j = 0) ∨ (i < j ∧ j ≤ limit)) :
    ∀ (fuel i : Nat), limit - i < fuel → Reads db (drain next fuel i) := by
  intro fuel
  induction fuel with
  | zero => intro i h; omega
  | succ fuel ih =>
    intro i hf y h
    unfold drain at h
    cases hn : next i with
    | error z => rw [hn] at h; cases h; exact h1 i _ hn
    | ok v =>
      obtain ⟨x, j⟩ := v
      rw [hn] at h
      have hc := h2 i x j hn
      cases x with
      | done => cases h
      | failed => cases h
      | failedHeld => cases h
      | item x =>
        rcases hc with ⟨hc, -⟩ | ⟨hc, hc'⟩
        · cases hc
        simp only at h
        cases hd : drain next fuel j with
        | error z => rw [hd] at h; cases h; exact ih j (by omega) _ hd
        | ok v => rw [hd] at h; cases h

/-! ### Looking up an address -/

theorem handleLeaf_reads (db : Db) (a na : Addr) (p net : Nat) : Reads db (handleLeaf db a na p net) := by
  unfold handleLeaf
  cases hs : fetchNetwork db na p net with
  | error z => exact fun y h => (by cases h; exact fetchNetwork_reads db _ _ _ _ hs)
  | ok v =>
    cases v with
    | soft => exact Reads.ok _
    | hard => exact Reads.ok _
    | got n => simp only; split <;> exact Reads.ok _

theorem lookupHere_reads (db : Db) (a na : Addr) (level : Nat) (node : NodeRec) : Reads db (lookupHere db a na level node) := by
  unfold lookupHere
  split
  · cases hs : handleLeaf db a na level node.net with
    | error z => exact fun y h => (by cases h; exact handleLeaf_reads db _ _ _ _ _ hs)
    | ok v => cases v <;> exact Reads.ok _
  · exact Reads.ok _

theorem lookupLoop_fine (db : Db) (a : Addr) : ∀ (rem : Nat) (na : Addr) (i : Nat), rem ≤ 128 → Deep db (128 - rem) i →
    ∀ y, lookupLoop db a rem na i = .error y → Fine db y := by
  intro rem
  induction rem with
  | zero =>
    intro na i _ hd y h
    unfold lookupLoop at h
    cases hs : fetchNode db i with
    | error z => rw [hs] at h; cases h; exact (fetchNode_reads db i).fine hs
    | ok r =>
      rw [hs] at h
      cases r with
      | none => cases h
      | some r =>
        cases h
        refine .inr ⟨rfl, fun hf => ?_⟩
        have := hf.depth _ _ hd
        omega
  | succ rem ih =>
    intro na i hr hd y h
    unfold lookupLoop at h
    cases hs : fetchNode db i with
    | error z => rw [hs] at h; cases h; exact (fetchNode_reads db i).fine hs
    | ok r =>
      rw [hs] at h
      cases r with
      | none => cases h
      | some r =>
        simp only at h
        have hhere : ∀ na level, (match lookupHere db a na level r with
            | .error e => .error e
            | .ok r => .ok (r, na) : Res (LookupOut × Addr)) = .error y → Fine db y := by
          intro na level h
          cases hh : lookupHere db a na level r with
          | error z => rw [hh] at h; cases h; exact (lookupHere_reads db _ _ _ _).fine hh
          | ok v => rw [hh] at h; cases h
        have hpos : ∀ j, (j = r.zero ∨ j = r.one) → 0 < j → ¬ j ≥ db.nodeCount → Deep db (128 - rem) j := by
          intro j h1 h2 h3
          have := Deep.step hd hs h1 h2 (by omega)
          rw [show 128 - (rem + 1) + 1 = 128 - rem by omega] at this
          exact this
        have hnx : (if getBit a (128 - (rem + 1)) then r.one else r.zero) = r.zero ∨ (if getBit a (128 - (rem + 1)) then r.one else r.zero) = r.one := by
          split <;> simp
        generalize (if getBit a (128 - (rem + 1)) then r.one else r.zero) = nx at h hnx
        split at h
        · rename_i hgt
          split at h
          · cases h
          · rename_i hlt
            have hdn := hpos nx hnx hgt hlt
            split at h
            · rename_i z hl
              cases h
              exact ih _ _ (by omega) hdn _ hl
            · cases h
            · cases h
            · exact hhere _ _ h
        · exact hhere _ _ h

theorem lookup_fine (db : Db) (a : Addr) : ∀ y, lookup db a = .error y → Fine db y := by
  intro y h
  unfold lookup at h
  split at h
  · rename_i z hl
    cases h
    exact lookupLoop_fine db a 128 _ 0 (Nat.le_refl _) Deep.root _ hl
  · cases h

/-! ### Enumerating networks -/

/-- Every entry of the stack is a node at its distance from the first, and the stack below it is not higher than needed. -/
def SInv (db : Db) : List StackNode → Prop
  | [] => True
  | nd :: rest => (nd.offset < db.nodeCount ∨ nd.offset = 0) ∧ Deep db nd.depth nd.offset ∧ rest.length ≤ 2 * nd.depth ∧ SInv db rest

theorem pushNode_fine {db : Db} {nodes : List StackNode} {off : Nat} {b : Bool} {d : Nat} (hs : SInv db nodes)
    (hd : 0 < off → off < db.nodeCount → Deep db d off) (hl : nodes.length ≤ 2 * d) :
    (∀ y, pushNode db nodes off b d = .error y → Fine db y) ∧
    ∀ l, pushNode db nodes off b d = .ok (some l) → SInv db l ∧ l.length ≤ nodes.length + 1 := by
  unfold pushNode
  split
  · exact ⟨fun y h => (by cases h), fun l h => (by cases h; exact ⟨hs, by omega⟩)⟩
  split
  · exact ⟨fun y h => (by cases h), fun l h => (by cases h)⟩
  split
  · exact ⟨fun y h => (by cases h), fun l h => (by cases h)⟩
  rename_i h1 h2 h3
  have hdeep := hd (by omega) (by omega)
  split
  · rename_i h4
    refine ⟨fun y h => ?_, fun l h => (by cases h)⟩
    cases h
    refine .inr ⟨rfl, fun hf => ?_⟩
    have := hf.depth _ _ hdeep
    unfold maxStackDepth at h4
    omega
  · refine ⟨fun y h => (by cases h), fun l h => ?_⟩
    cases h
    exact ⟨⟨.inl (by show off < _; omega), hdeep, hl, hs⟩, by simp⟩

theorem dfs_fine (db : Db) (filter : Bool) : ∀ (fuel : Nat) (e : NetEnum), GInv db e → SInv db e.nodes → work db e < fuel →
    (∀ y, dfsLoop db filter fuel e = .error y → Fine db y) ∧
    ∀ x e', dfsLoop db filter fuel e = .ok (x, e') → SInv db e'.nodes := by
  intro fuel
  induction fuel with
  | zero => intro e _ _ h; omega
  | succ fuel ih =>
    intro e hi hsv hf
    unfold work at hf
    rw [dfsLoop]
    cases hn : e.nodes with
    | nil =>
      refine ⟨fun y h => (by cases h), ?_⟩
      intro x e' h
      cases h
      rw [hn]; trivial
    | cons nd rest =>
      rw [hn, List.length_cons] at hf
      rw [hn] at hsv
      obtain ⟨s1, s2, s3, s4⟩ := hsv
      simp only
      by_cases h1 : nd.offset ≥ db.nodeCount
      · rw [if_pos h1]
        refine ⟨fun y h => ?_, fun x e' h => by cases h⟩
        cases h
        refine .inr ⟨rfl, fun hf => ?_⟩
        have := hf.pos
        omega
      rw [if_neg h1]
      by_cases h2 : nd.offset ∈ e.visited
      · rw [if_pos h2]
        exact ih { e with nodes := rest } ⟨hi.nodup, hi.range⟩ s4 (by unfold work; simp only; omega)
      rw [if_neg h2]
      by_cases h3 : nd.depth - 1 ≥ 128
      · rw [if_pos h3]
        refine ⟨fun y h => ?_, fun x e' h => by cases h⟩
        cases h
        refine .inr ⟨rfl, fun hf => ?_⟩
        have := hf.depth _ _ s2
        omega
      rw [if_neg h3]
      have hi' : ∀ (a : Addr) (nodes : List StackNode), GInv db { e with address := a, visited := nd.offset :: e.visited, nodes := nodes } :=
        fun a nodes => ⟨List.nodup_cons.mpr ⟨h2, hi.nodup⟩, fun i hm => by
          rcases List.mem_cons.mp hm with rfl | hm
          · omega
          · exact hi.range i hm⟩
      have hlen : e.visited.length + 1 ≤ db.nodeCount := by
        have := (hi' e.address []).length
        simpa using this
      have hfail : ∀ (a : Addr) (nodes : List StackNode), SInv db nodes →
          (∀ y, (.ok (.failed, { e with address := a, visited := nd.offset :: e.visited, nodes := nodes }) : Res (Next Network × NetEnum)) = .error y → Fine db y) ∧
          ∀ x e', (.ok (.failed, { e with address := a, visited := nd.offset :: e.visited, nodes := nodes }) : Res (Next Network × NetEnum)) = .ok (x, e') →
            SInv db e'.nodes := by
        intro a nodes hs
        refine ⟨fun y h => (by cases h), ?_⟩
        intro x e' h
        cases h
        exact hs
      have herr : ∀ y : Fault, Fine db y → (∀ z, (.error y : Res (Next Network × NetEnum)) = .error z → Fine db z) ∧
          ∀ x e', (.error y : Res (Next Network × NetEnum)) = .ok (x, e') → SInv db e'.nodes :=
        fun y hy => ⟨fun z h => (by cases h; exact hy), fun x e' h => by cases h⟩
      have hs0 : SInv db (nd :: rest) := ⟨s1, s2, s3, s4⟩
      cases hfn : fetchNode db nd.offset with
      | error y => exact herr y ((fetchNode_reads db _).fine hfn)
      | ok r =>
        cases r with
        | none => simp only; exact hfail _ _ hs0
        | some r =>
          simp only
          have p1 := pushNode_fine (b := true) hs0 (fun h4 h5 => Deep.step s2 hfn (.inr rfl) h4 h5) (by simp only [List.length_cons]; omega)
          cases hp1 : pushNode db (nd :: rest) r.one true (nd.depth + 1) with
          | error y => exact herr y (p1.1 y hp1)
          | ok l1 =>
            cases l1 with
            | none => exact hfail _ _ hs0
            | some l1 =>
              simp only
              obtain ⟨q1, q2⟩ := p1.2 l1 hp1
              have p2 := pushNode_fine (b := false) q1 (fun h4 h5 => Deep.step s2 hfn (.inl rfl) h4 h5) (by simp only [List.length_cons] at q2; omega)
              cases hp2 : pushNode db l1 r.zero false (nd.depth + 1) with
              | error y => exact herr y (p2.1 y hp2)
              | ok l2 =>
                cases l2 with
                | none => exact hfail _ _ q1
                | some l2 =>
                  simp only
                  obtain ⟨q3, q4⟩ := p2.2 l2 hp2
                  have hgo := ih { e with address := setBit e.address (nd.depth - 1) nd.i, visited := nd.offset :: e.visited, nodes := l2 } (hi' _ _) q3 (by
                    unfold work
                    simp only [List.length_cons] at q2 ⊢
                    omega)
                  split
                  · cases hfe : fetchNetwork db (setBit e.address (nd.depth - 1) nd.i) nd.depth r.net with
                    | error y => exact herr y ((fetchNetwork_reads db _ _ _).fine hfe)
                    | ok y =>
                      cases y with
                      | soft => exact hfail _ _ q3
                      | hard => exact ⟨fun y h => (by cases h), fun x e' h => (by cases h; exact q3)⟩
                      | got n =>
                        simp only
                        split
                        · exact ⟨fun y h => (by cases h), fun x e' h => (by cases h; exact q3)⟩
                        · exact hgo
                  · exact hgo

theorem next_fine (db : Db) (filter : Bool) (e : NetEnum) (hi : GInv db e) (hs : SInv db e.nodes) :
    (∀ y, nextNetworkRaw db filter e = .error y → Fine db y) ∧
    ∀ x e', nextNetworkRaw db filter e = .ok (x, e') → SInv db e'.nodes := by
  unfold nextNetworkRaw
  rcases hp : popMatching e.filter filter e.stack with ⟨_ | n, l⟩
  · simp only
    exact dfs_fine db filter (dfsFuel db e) { e with stack := l } ⟨hi.nodup, hi.range⟩ hs (by unfold work dfsFuel; simp only; omega)
  · exact ⟨fun y h => (by cases h), fun x e' h => (by cases h; exact hs)⟩

theorem enumNew_sinv (db : Db) (flt : Filter) : GInv db (enumNew flt) ∧ SInv db (enumNew flt).nodes :=
  ⟨⟨List.nodup_nil, fun i hi => (by cases hi)⟩, ⟨.inr rfl, Deep.root, Nat.le_refl _, trivial⟩⟩

theorem calls_fine (db : Db) : ∀ (k : Nat) (e : NetEnum), GInv db e → SInv db e.nodes →
    ∀ y, calls (nextNetwork db) k e = .error y → Fine db y := by
  intro k
  induction k with
  | zero => intro e _ _ y h; cases h
  | succ k ih =>
    intro e hi hs y h
    unfold calls at h
    cases hn : nextNetwork db e with
    | error z => rw [hn] at h; cases h; exact (next_fine db true e hi hs).1 _ hn
    | ok v =>
      obtain ⟨x, e'⟩ := v
      rw [hn] at h
      simp only at h
      cases hc : calls (nextNetwork db) k e' with
      | error z =>
        rw [hc] at h
        cases h
        exact ih e' ((next_ends db true e hi).2 x e' hn).1 ((next_fine db true e hi hs).2 x e' hn) _ hc
      | ok v => rw [hc] at h; cases h

end Loc
