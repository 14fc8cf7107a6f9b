import Verif.Lemmas.Depends
import Verif.Props.Agree
/-
C100: the answer for an address depends on few bytes of the file.
-/
namespace Loc.Props
open Loc Loc.Spec

/-- For every file and every address there are at most 1576 positions in the file (four numbers of the header, 129 nodes, one
    network) such that every other file of the same length with the same bytes at these positions gives the same answer. -/
theorem lookup_depends {f : Bytes} {db : Db} (h : dbOpen f = .ok db) (a : Addr) : ∃ S : List Nat, S.length ≤ 1576 ∧
    ∀ g db', dbOpen g = .ok db' → g.length = f.length → (∀ i ∈ S, g[i]? = f[i]?) → lookup db' a = lookup db a := by
  obtain ⟨S, h1, _, h3⟩ := lookupLoop_depends db a 128 (Vector.replicate 16 0) 0
  refine ⟨(List.range' (magicSize + 28) 4 ++ (List.range' (magicSize + 32) 4 ++ (List.range' (magicSize + 36) 4 ++ List.range' (magicSize + 40) 4))) ++ S, ?_, ?_⟩
  · simp only [List.length_append, List.length_range']; omega
  · intro g db' hg hl hag
    have hag : AgreeAt _ f g := hag
    obtain ⟨b, e0, e1, e2, e3, e4, e5, -⟩ := readHeader_shape h
    obtain ⟨b', e0', e1', e2', e3', e4', e5', -⟩ := readHeader_shape hg
    subst e0 e0'
    have hs : SameShape db db' := by
      refine ⟨by rw [e1, e1', hl], ?_, ?_, ?_, ?_⟩
      · rw [e4, e4', header_field (by decide) hag.left.right.right.left]
      · rw [e5, e5', header_field (by decide) hag.left.right.right.right]
      · rw [e2, e2', header_field (by decide) hag.left.left]
      · rw [e3, e3', header_field (by decide) hag.left.right.left]
    unfold lookup
    rw [h3 db' hs (by rw [e1, e1']; exact hag.right)]

/-- The sample database: one of its networks is found; the file has more than twice as many bytes. -/
example : ∃ w f db m, Written 32 none none demoOps demoEnv w f ∧ dbOpen f = .ok db ∧ lookup db (ip4 10 1 2 3) = .ok (.ok (some m)) ∧
    2 * 1576 < f.length := by
  obtain ⟨w, f, db, h1, h2, h3, -, -⟩ := demo_plain
  obtain ⟨m, hm, -⟩ := demo_found h1 h2 h3
  obtain ⟨_, _, _, _, _, _, _, hl⟩ := readHeader_shape h2
  exact ⟨w, f, db, m, h1, h2, hm, Nat.lt_of_lt_of_le (by decide) hl⟩

end Loc.Props
