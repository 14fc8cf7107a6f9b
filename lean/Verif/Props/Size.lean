import Verif.Lemmas.Size
import Verif.Props.File
/-
C97: how large a database gets.
-/
namespace Loc.Props
open Loc Loc.Spec

theorem body_length (s : Sections) : magicSize + headerSize + (bodyBytes s).length ≤
    24572 + (s.ases.length + s.tree.length + s.nets.length + s.countries.length + s.pool.length) := by
  have h0 : (padding (magicSize + headerSize)).length = 3992 := by
    rw [padding, List.length_replicate]; rfl
  have h1 := length_padding (asOffset + s.ases.length)
  have h2 := length_padding (treeOffset s + s.tree.length)
  have h3 := length_padding (netOffset s + s.nets.length)
  have h4 := length_padding (countryOffset s + s.countries.length)
  simp only [bodyBytes, List.length_append, h0]
  have : magicSize + headerSize = 4200 := rfl
  omega

/-- A database written after a history of calls is no longer than a fixed part and what each call adds (once more
    for every earlier write), or than the file it is written over. -/
theorem size_bound {K : Type} {ctz0 : Nat} (h0 : 8 ≤ ctz0) {key1 key2 : Option K} {ops : List (WOp K)} {w w' : Writer K}
    (h : Writes ctz0 key1 key2 ops w) {e : WEnv K} (he : e.ctz0 = ctz0) {old f : Bytes}
    {version : Nat} (hw : writerWrite e w old version = .ok (w', some f)) :
    f.length ≤ max old.length (24585 + (ops.countP IsWrite + 1) * (ops.map callBytes).sum) := by
  have hsum : ∀ l : List (WOp K), (l.map callBytes).sum = total callBytes l := by
    intro l
    induction l with
    | nil => rfl
    | cons a l ih => rw [List.map_cons, List.sum_cons, ih]; rfl
  rw [hsum]
  rcases writerWrite_cases hw with ⟨-, h1⟩ | ⟨s, w1, hs, ⟨-, h1⟩ | ⟨sig1, len1, sig2, len2, msg, rest, hrest, -, e1, e2, -, hf⟩⟩
  · cases h1
  · cases h1
  · cases hf
    have hi := writeSections_inv (winv h) he hs
    obtain ⟨a1, a2, -⟩ := signWith_spec hi.s1 hi.l1 (fun hk => hi.z1 (hi.k1 ▸ hk)) e1
    obtain ⟨b1, b2, -⟩ := signWith_spec hi.s2 hi.l2 (fun hk => hi.z2 (hi.k2 ▸ hk)) e2
    have hh := length_headerBytes (makeHeader e w1 s) (s1 := sig1.take len1) (s2 := sig2.take len2)
      (by rw [List.length_take]; omega) (by rw [List.length_take]; omega)
    have hb := body_length s
    have hsz := sections_size h0 h he hs
    have hm : magic.length = magicSize := rfl
    rw [hrest]
    simp only [List.length_append, List.length_drop, hh, hm]
    omega

/-- As long as the sum of what the calls add stays below 4 GiB, every write to a new file succeeds and gives a
    file below 4 GiB, which is what all statements about written databases ask for. -/
theorem size_total {K : Type} {ctz0 : Nat} (h0 : 8 ≤ ctz0) (ops : List (WOp K)) (ho : ∀ op ∈ ops, OpOk ctz0 op)
    (hs : ∀ op ∈ ops, ShortOp op) (hsum : 24585 + (ops.countP IsWrite + 1) * (ops.map callBytes).sum < 2 ^ 32)
    (e : WEnv K) (he : e.ctz0 = ctz0) : ∃ w' f, Written ctz0 none none ops e w' f := by
  obtain ⟨w, hw, w', f, hf⟩ := write_total h0 ops ho hs e he []
  have := size_bound h0 hw he hf
  simp only [List.length_nil] at this
  exact ⟨w', f, w, [], 0, hw, he, hf, by omega⟩

/-- The strings of a call have at most 255 bytes. -/
def SmallOp {K : Type} (op : WOp K) : Prop :=
  match op with
  | .vendor s => stringBytes s ≤ 256
  | .description s => stringBytes s ≤ 256
  | .license s => stringBytes s ≤ 256
  | .addAs _ name => stringBytes name ≤ 256
  | .renameAs _ name => stringBytes name ≤ 256
  | .addCountry _ _ name => stringBytes name ≤ 256
  | _ => True

def IsNetwork {K : Type} : WOp K → Bool
  | .addNetwork _ => true
  | _ => false

/-- Two million networks and four million other calls with strings of up to 255 bytes always fit. -/
theorem size_practical {K : Type} {ctz0 : Nat} (h0 : 8 ≤ ctz0) (ops : List (WOp K)) (ho : ∀ op ∈ ops, OpOk ctz0 op)
    (hs : ∀ op ∈ ops, SmallOp op) (hnw : ∀ op ∈ ops, IsWrite op = false)
    (hn : ops.countP IsNetwork ≤ 2000000) (hl : ops.countP (fun op => !IsNetwork op) ≤ 4000000)
    (e : WEnv K) (he : e.ctz0 = ctz0) : ∃ w' f, Written ctz0 none none ops e w' f := by
  have hsh : ∀ s : Option CStr, stringBytes s ≤ 256 → ShortStr s := by
    intro s h x hx
    subst hx
    simp only [stringBytes] at h
    omega
  refine size_total h0 ops ho (fun op h => ?_) ?_ e he
  · have := hs op h
    cases op <;> first | exact hsh _ this | trivial
  · have key : ∀ l : List (WOp K), (∀ op ∈ l, OpOk ctz0 op) → (∀ op ∈ l, SmallOp op) →
        (l.map callBytes).sum ≤ 1548 * l.countP IsNetwork + 264 * l.countP (fun op => !IsNetwork op) := by
      intro l
      induction l with
      | nil => intro _ _; simp
      | cons op l ih =>
        intro h1 h2
        have h3 := ih (fun x hx => h1 x (by simp [hx])) (fun x hx => h2 x (by simp [hx]))
        have h4 := h2 op (by simp)
        have h5 := h1 op (by simp)
        rw [List.map_cons, List.sum_cons, List.countP_cons, List.countP_cons]
        generalize l.countP IsNetwork = x at h3 ⊢
        generalize l.countP (fun op => !IsNetwork op) = y at h3 ⊢
        cases op with
        | addNetwork n =>
          have := (built_ok ctz0 h0 h5).1.le
          simp only [callBytes, IsNetwork, if_true, Bool.not_true, Bool.false_eq_true, if_false]
          omega
        | _ =>
          simp only [SmallOp] at h4
          simp only [callBytes, IsNetwork, Bool.false_eq_true, if_false, Bool.not_false, if_true]
          omega
    have := key ops ho hs
    have hz : ops.countP IsWrite = 0 := List.countP_eq_zero.mpr fun op h => by rw [hnw op h]; simp
    rw [hz]
    omega

/-- The sample meets the assumptions: its calls add at most 2696 bytes. -/
example : (∀ op ∈ demoOps, OpOk 32 op) ∧ (∀ op ∈ demoOps, SmallOp op) ∧ (∀ op ∈ demoOps, ShortOp op) ∧
    (∀ op ∈ demoOps, IsWrite op = false) ∧ demoOps.countP IsNetwork = 2 ∧ (demoOps.map callBytes).sum = 2696 := by
  refine ⟨demo_ok, ?_, ?_, by decide, by decide, by decide⟩
  · intro op h
    simp only [demoOps, List.mem_cons, List.not_mem_nil, or_false] at h
    rcases h with rfl | rfl | rfl | rfl | rfl | rfl | rfl | rfl | rfl | rfl | rfl | rfl | rfl <;>
      first | trivial | (simp only [SmallOp, stringBytes]; decide)
  · intro op h
    simp only [demoOps, List.mem_cons, List.not_mem_nil, or_false] at h
    rcases h with rfl | rfl | rfl | rfl | rfl | rfl | rfl | rfl | rfl | rfl | rfl | rfl | rfl <;>
      first | trivial | (intro x hx; cases hx; done) | (intro x hx; cases hx; decide)

/-- The database of the sample has 24596 bytes, the bound is 27281. -/
example : (outcome demoEnv demoOps).map (·.1) = some 24596 := by decide +kernel

end Loc.Props
