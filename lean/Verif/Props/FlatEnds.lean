import Verif.Lemmas.BogonEnds
/-
C18: flattened and bogon enumerations end on every file.
-/
namespace Loc.Props
open Loc Loc.Spec

/-- Whatever the nodes and networks of a database are (any graph, any records): no call of a flattened enumeration runs for ever;
    however often it is called, it returns a network or an error a limited number of times only, and nothing but the end after
    the end. -/
theorem flattened_terminates (db : Db) (flt : Filter) : ∃ K, ∀ f0, K ≤ f0 → ∀ k, calls (nextNetworkFlat db f0) k (enumNew flt) ≠ .error .diverge ∧
    ∀ os s, calls (nextNetworkFlat db f0) k (enumNew flt) = .ok (os, s) →
      (os.filter (· ≠ .done)).length ≤ K ∧ ∀ a b, os = a ++ .done :: b → ∀ x ∈ b, x = .done :=
  calls_flat db (enumNew flt) ⟨⟨List.nodup_nil, fun i hi => (by cases hi)⟩, ⟨List.Pairwise.nil, (fun n hn => by cases hn), (fun n hn => by cases hn)⟩⟩

/-- The same for enumerations of bogons, up to the first error (an error at the end is repeated by every further call): no call runs
    for ever if it may read every node once, and the end or an error is reached. -/
theorem bogons_terminate (db : Db) (flt : Filter) {f0 : Nat} (hf : db.nodeCount < f0) :
    (∀ k, calls (nextBogon db f0) k (enumNew flt) ≠ .error .diverge) ∧
    ∃ K, ∀ fuel, K ≤ fuel → drain (nextBogon db f0) fuel (enumNew flt) ≠ .error .diverge :=
  have hi : GInv db (enumNew flt) := ⟨List.nodup_nil, fun i hi => (by cases hi)⟩
  ⟨fun k => calls_bogon db hf k _ hi, drain_bogon db hf _ hi⟩

/-! ### A file with cycles -/

/-- Two nodes, each of which leads back to one that was read before; a network with the AS number 7 at the second one. -/
def loopDb : Db :=
  { file := [0,0,0,1, 0,0,0,0, 255,255,255,255, 0,0,0,1, 0,0,0,0, 0,0,0,0, 68,69, 0,0, 0,0,0,7, 0,0, 0,0], createdAt := 0,
    vendor := 0, description := 0, license := 0, sig1Off := 0, sig1Len := 0, sig2Off := 0, sig2Len := 0, poolOff := 0, poolLen := 0,
    asOff := 0, asCount := 0, nodeOff := 0, nodeCount := 2, netOff := 24, netCount := 1, countryOff := 0, countryCount := 0 }

/-- What an enumeration returned: AS numbers and prefix lengths. -/
def brief (r : Res (List Network × Bool × NetEnum)) : Option (List (Nat × Nat) × Bool) :=
  match r with
  | .ok (l, b, _) => some (l.map (fun n => (n.asn.toNat, n.pfx)), b)
  | .error _ => none

/-- The flattened enumeration returns the network once and ends. -/
example : brief (drain (nextNetworkFlat loopDb 3) 3 (enumNew noFilter)) = some ([(7, 1)], true) := by decide +kernel

/-- The enumeration of bogons ends, too (with an error). -/
example : brief (drain (nextBogon loopDb 3) 3 (enumNew noFilter)) = some ([], false) := by decide +kernel

end Loc.Props
