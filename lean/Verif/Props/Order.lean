import Verif.Lemmas.Order
import Verif.Props.File
/-
C38: the order of additions does not matter.
-/
namespace Loc.Props
open Loc Loc.Spec

/-- C38, apart from the bytes of the network records that nobody initialises (`e.junk`): when
    additions of different networks and ASes in the middle of a history are permuted, every
    following write gives the same bytes.  Missing: the uninitialised bytes need not be the same in
    two runs, see `order_violated_padding`. -/
theorem order_independent_partial {K : Type} {ctz0 : Nat} (h8 : 8 ≤ ctz0) {key1 key2 : Option K} {pre post adds adds' : List (WOp K)} {w : Writer K}
    (hw : Writes ctz0 key1 key2 (pre ++ adds ++ post) w) (hp : adds.Perm adds') (ha : ∀ op ∈ adds, IsAddition op = true) (hd : adds.Pairwise Different) :
    ∃ w', Writes ctz0 key1 key2 (pre ++ adds' ++ post) w' ∧
      ∀ (e : WEnv K) (old : Bytes) (version : Nat), (writerWrite e w old version).map (·.2) = (writerWrite e w' old version).map (·.2) := by
  obtain ⟨ho, w0, h0, hr⟩ := hw
  rw [wrun_append, wrun_append] at hr
  cases h1 : wrun w0 pre with
  | error x => rw [h1] at hr; cases hr
  | ok w1 =>
    rw [h1] at hr
    simp only at hr
    have hi : WInv ctz0 key1 key2 pre w1 := winv ⟨fun op hop => ho op (by simp [hop]), w0, h0, h1⟩
    have hs := wrun_perm h8 hp (fun op hop => ⟨ha op hop, ho op (by simp [hop])⟩) hd (SameW.rfl hi.nodup)
    cases h2 : wrun w1 adds with
    | error x => rw [h2] at hr; cases hr
    | ok w2 =>
      rw [h2] at hr hs
      simp only at hr
      cases h3 : wrun w1 adds' with
      | error x => rw [h3] at hs; cases hs
      | ok w3 =>
        rw [h3] at hs
        have hs2 := wrun_same post (show SameW w2 w3 from hs)
        rw [hr] at hs2
        cases h4 : wrun w3 post with
        | error x => rw [h4] at hs2; cases hs2
        | ok w4 =>
          rw [h4] at hs2
          have hs2 : SameW w w4 := hs2
          refine ⟨w4, ⟨?_, w0, h0, ?_⟩, ?_⟩
          · intro op hop
            apply ho op
            simp only [List.mem_append] at hop ⊢
            rcases hop with (hop | hop) | hop
            · exact Or.inl (Or.inl hop)
            · exact Or.inl (Or.inr (hp.mem_iff.mpr hop))
            · exact Or.inr hop
          · rw [wrun_append, wrun_append, h1]
            simp only
            rw [h3]
            exact h4
          · intro e old version
            unfold writerWrite
            cases writeVersion version with
            | error x => rfl
            | ok x =>
              simp only
              rw [writeSections_same e hs2]

/-- 10.0.0.0/8, 10.1.0.0/16 and AS 64512 in two orders. -/
def orderA : List (WOp Unit) := [.addNetwork net10_8, .addNetwork net10_1_16, .addAs 64512 none]
def orderB : List (WOp Unit) := [.addAs 64512 none, .addNetwork net10_1_16, .addNetwork net10_8]

example : orderA.Perm orderB ∧ (∀ op ∈ orderA, IsAddition op = true) ∧ orderA.Pairwise Different ∧ ∀ op ∈ orderA, OpOk 32 op := by
  refine ⟨?_, by decide, ?_, ?_⟩
  · exact (List.reverse_perm orderA).symm
  · simp only [orderA, List.pairwise_cons, List.mem_cons, List.not_mem_nil, or_false]
    refine ⟨?_, ?_, ?_, .nil⟩
    · rintro x (rfl | rfl)
      · simp only [Different]
        decide +kernel
      · trivial
    · rintro x rfl
      trivial
    · rintro x h
      exact absurd h (by simp)
  · intro op hop
    simp only [orderA, List.mem_cons, List.not_mem_nil, or_false] at hop
    rcases hop with rfl | rfl | rfl
    · exact net10_8_built 32
    · exact net10_1_16_built 32
    · exact strOk_none

/-- Two environments that differ only in the bytes nobody initialises. -/
def junkEnv : WEnv Unit := { demoEnv with junk := fun _ => (9, 9, 9, 9) }

/-- C38 violated: the same calls give different files, because four bytes of every network record
    are never initialised. -/
theorem order_violated_padding : ∃ (e e' : WEnv Unit) (w w' : Writer Unit) (f f' : Bytes), e' = { e with junk := e'.junk } ∧
    Written 32 none none orderA e w f ∧ Written 32 none none orderA e' w' f' ∧ f ≠ f' := by
  have hok : ∀ op ∈ orderA, OpOk 32 op := by
    intro op hop
    simp only [orderA, List.mem_cons, List.not_mem_nil, or_false] at hop
    rcases hop with rfl | rfl | rfl
    · exact net10_8_built 32
    · exact net10_1_16_built 32
    · exact strOk_none
  have key : ∀ (e : WEnv Unit) (x : Option Byte), e.ctz0 = 32 → (fileOf e orderA).map (fun f => f[16386]?) = some x →
      ∃ w f, Written 32 none none orderA e w f ∧ f[16386]? = x := by
    intro e x he h
    rw [Option.map_eq_some_iff] at h
    obtain ⟨f, h1, h2⟩ := h
    unfold fileOf at h1
    split at h1
    · cases h1
    rename_i w hw
    split at h1
    · rename_i w1 f1 hw1
      split at h1
      · rename_i hl
        cases h1
        exact ⟨w1, f, ⟨w, [], 0, runOf_writes hok hw, he, hw1, hl⟩, h2⟩
      · cases h1
    · cases h1
  obtain ⟨w, f, h1, h2⟩ := key demoEnv (some 1) rfl (by decide +kernel)
  obtain ⟨w', f', h3, h4⟩ := key junkEnv (some 9) rfl (by decide +kernel)
  refine ⟨demoEnv, junkEnv, w, w', f, f', rfl, h1, h3, ?_⟩
  rintro rfl
  rw [h2] at h4
  cases h4

end Loc.Props
