import Verif.Spec.Retrieve
/-
Reading a reply in pieces.
-/
namespace Loc
open Spec

/-- The part of the document that is read. -/
def received (r : HttpReply) : Bytes :=
  match r.framing with
  | .sized n => r.arrived.take n
  | _ => r.arrived

/-- The connection is closed before the announced length. -/
def cutSized (r : HttpReply) : Prop := ∃ n, r.framing = .sized n ∧ r.arrived.length < n ∧ r.ending = .closed

/-- Reading comes to an end without an exception. -/
def readsEnd (r : HttpReply) : Prop := SeesEnd r ∨ cutSized r

theorem httpRead_ends {r : HttpReply} (t : Bool) {pos amt : Nat} (h : readsEnd r) :
    ∃ k, amt ≤ k ∧ httpRead r t pos amt = .ok (((received r).drop pos).take k) ∨ httpRead r t pos amt = .ok (((received r).drop pos).take amt) := by
  refine ⟨amt + (received r).length, ?_⟩
  have hall : ∀ l : Bytes, l.length ≤ (received r).length → l.take (amt + (received r).length) = l := fun l hl => List.take_of_length_le (by omega)
  unfold httpRead asked
  cases hf : r.framing with
  | sized n =>
    simp only
    by_cases hle : min amt (n - pos) ≤ (r.arrived.drop pos).length
    · right
      rw [if_pos hle]
      congr 1
      unfold received
      rw [hf]
      simp only
      rw [List.drop_take, List.take_take]
    · left
      refine ⟨by omega, ?_⟩
      rw [if_neg hle, if_neg (by simp)]
      have hlt : r.arrived.length < n := by
        rw [List.length_drop] at hle
        omega
      rcases h with h | ⟨m, h1, h2, h3⟩
      · unfold SeesEnd at h
        rw [hf] at h
        simp only at h
        omega
      · rw [h3]
        simp only [reduceCtorEq, if_false]
        have hr : received r = r.arrived := by
          unfold received
          rw [hf]
          simp only
          exact List.take_of_length_le (by omega)
        rw [hall _ (by rw [List.length_drop]; omega), hr]
  | chunked =>
    have hr : received r = r.arrived := by unfold received; rw [hf]
    simp only
    by_cases hle : amt ≤ (r.arrived.drop pos).length
    · right
      rw [if_pos hle, hr]
    · left
      refine ⟨by omega, ?_⟩
      rw [if_neg hle]
      rcases h with h | ⟨m, h1, _⟩
      · unfold SeesEnd at h
        rw [hf] at h
        simp only at h
        rw [if_pos ⟨by simp, h⟩, hall _ (by rw [List.length_drop]; omega), hr]
      · rw [hf] at h1; cases h1
  | untilClose =>
    have hr : received r = r.arrived := by unfold received; rw [hf]
    simp only
    by_cases hle : amt ≤ (r.arrived.drop pos).length
    · right
      rw [if_pos hle, hr]
    · left
      refine ⟨by omega, ?_⟩
      rw [if_neg hle, if_neg (by simp)]
      rcases h with h | ⟨m, h1, _⟩
      · unfold SeesEnd at h
        rw [hf] at h
        simp only at h
        rw [h]
        simp only [reduceCtorEq, if_false]
        rw [hall _ (by rw [List.length_drop]; omega), hr]
      · rw [hf] at h1; cases h1

theorem readLoop_ends {r : HttpReply} (t : Bool) (h : readsEnd r) : ∀ fuel pos, (received r).length < pos + fuel →
    pos ≤ (received r).length → readLoop r t fuel pos = .ok ((received r).drop pos) := by
  intro fuel
  induction fuel with
  | zero => intro pos h1 h2; omega
  | succ fuel ih =>
    intro pos h1 h2
    have key : ∃ k, 65536 ≤ k ∧ httpRead r t pos 65536 = .ok (((received r).drop pos).take k) := by
      obtain ⟨k, ⟨hk, hr⟩ | hr⟩ := httpRead_ends t (pos := pos) (amt := 65536) h
      · exact ⟨k, hk, hr⟩
      · exact ⟨65536, Nat.le_refl _, hr⟩
    obtain ⟨k, hk, hr⟩ := key
    rw [readLoop, hr]
    simp only
    by_cases he : pos = (received r).length
    · subst he
      simp
    · have hlen : (((received r).drop pos).take k).length = min k ((received r).length - pos) := by simp
      rw [if_neg (by
        intro hh
        rw [List.isEmpty_iff, ← List.length_eq_zero_iff, hlen] at hh
        omega)]
      rw [ih _ (by rw [hlen]; omega) (by rw [hlen]; omega)]
      simp only
      congr 1
      rw [hlen]
      conv => rhs; rw [← List.take_append_drop k ((received r).drop pos)]
      congr 1
      rw [List.drop_drop]
      by_cases hk2 : k ≤ (received r).length - pos
      · rw [Nat.min_eq_left hk2]
      · rw [Nat.min_eq_right (by omega), List.drop_of_length_le (by omega), List.drop_of_length_le (by omega)]

theorem httpRead_length {r : HttpReply} {t : Bool} {pos amt : Nat} {buf : Bytes} (h : httpRead r t pos amt = .ok buf) :
    buf.length ≤ r.arrived.length - pos := by
  have hd : (r.arrived.drop pos).length = r.arrived.length - pos := by rw [List.length_drop]
  unfold httpRead at h
  by_cases hk : asked r pos amt ≤ (r.arrived.drop pos).length
  · rw [if_pos hk] at h
    cases h
    rw [List.length_take, hd]; omega
  · rw [if_neg hk] at h
    by_cases hl : r.framing = .chunked ∧ r.last = true
    · rw [if_pos hl] at h
      cases h
      omega
    · rw [if_neg hl] at h
      cases hc : r.ending with
      | closed =>
        rw [hc] at h
        simp only at h
        by_cases hf : r.framing = .chunked
        · rw [if_pos hf] at h; cases h
        · rw [if_neg hf] at h; cases h; omega
      | broken => rw [hc] at h; cases h
      | silent => rw [hc] at h; simp only at h; split at h <;> cases h

theorem readLoop_fails {r : HttpReply} (t : Bool) (h : ¬ readsEnd r) : ∀ fuel pos, pos ≤ r.arrived.length →
    ∃ x, readLoop r t fuel pos = .error x := by
  intro fuel
  induction fuel with
  | zero => intro pos _; exact ⟨_, rfl⟩
  | succ fuel ih =>
    intro pos hp
    rw [readLoop]
    cases hr : httpRead r t pos 65536 with
    | error x => exact ⟨x, rfl⟩
    | ok buf =>
      simp only
      by_cases he : buf.isEmpty = true
      · exfalso
        rw [List.isEmpty_iff] at he
        subst he
        apply h
        unfold httpRead asked at hr
        unfold readsEnd SeesEnd cutSized
        cases hf : r.framing with
        | sized n =>
          rw [hf] at hr
          simp only at hr
          simp only
          by_cases hn : n ≤ r.arrived.length
          · exact .inl hn
          · right
            refine ⟨n, rfl, by omega, ?_⟩
            split at hr
            · rename_i hle
              simp only [Except.ok.injEq] at hr
              have := congrArg List.length hr
              rw [List.length_take, List.length_drop, List.length_nil] at this
              rw [List.length_drop] at hle
              omega
            · rw [if_neg (by simp)] at hr
              cases hc : r.ending with
              | closed => rfl
              | broken => rw [hc] at hr; cases hr
              | silent => rw [hc] at hr; simp only at hr; split at hr <;> cases hr
        | chunked =>
          rw [hf] at hr
          simp only at hr
          left
          simp only
          split at hr
          · rename_i hle
            simp only [Except.ok.injEq] at hr
            have := congrArg List.length hr
            rw [List.length_take, List.length_nil] at this
            omega
          · split at hr
            · rename_i hl
              exact hl.2
            · cases hc : r.ending with
              | closed => rw [hc] at hr; simp at hr
              | broken => rw [hc] at hr; cases hr
              | silent => rw [hc] at hr; simp only at hr; split at hr <;> cases hr
        | untilClose =>
          rw [hf] at hr
          simp only at hr
          left
          simp only
          split at hr
          · rename_i hle
            simp only [Except.ok.injEq] at hr
            have := congrArg List.length hr
            rw [List.length_take, List.length_nil] at this
            omega
          · rw [if_neg (by simp)] at hr
            cases hc : r.ending with
            | closed => rfl
            | broken => rw [hc] at hr; cases hr
            | silent => rw [hc] at hr; simp only at hr; split at hr <;> cases hr
      · rw [if_neg he]
        obtain ⟨x, hx⟩ := ih (pos + buf.length) (by have := httpRead_length hr; omega)
        rw [hx]
        exact ⟨x, rfl⟩

theorem received_length (r : HttpReply) : (received r).length ≤ r.arrived.length := by
  unfold received
  split
  · rw [List.length_take]; omega
  · exact Nat.le_refl _

theorem received_delivers {doc : Bytes} {r : HttpReply} (h : Delivers doc r) : received r = r.arrived := by
  unfold received
  split
  · rename_i n hf
    rw [h.size n hf]
    exact List.take_of_length_le h.part.length_le
  · rfl

theorem told_gzip (t : Option CStr) : (t = some strXGzip ∨ t = some strGzip) ↔
    (t = some (ascii "application/x-gzip") ∨ t = some (ascii "application/gzip")) := by
  rw [show strXGzip = ascii "application/x-gzip" by decide, show strGzip = ascii "application/gzip" by decide]

theorem retrieve_ends {r : HttpReply} (t : Bool) (h : readsEnd r) (o : Retrieved) :
    retrieve r t = .ok o ↔ o.data = received r ∧ (o.gzip = true ↔ ToldGzip r (received r)) := by
  unfold retrieve
  rw [readLoop_ends t h (r.arrived.length + 1) 0 (by have := received_length r; omega) (by omega), List.drop_zero]
  simp only [told_gzip]
  have hm : (received r).take 2 = [0x1f, 0x8b] ↔ ([0x1f, 0x8b] : Bytes) <+: received r := by
    rw [List.prefix_iff_eq_take]
    exact ⟨fun h => h.symm, fun h => h.symm⟩
  unfold ToldGzip
  rw [← hm, ← or_assoc]
  obtain ⟨d, g⟩ := o
  split
  · rename_i h1
    simp only [Except.ok.injEq, Retrieved.mk.injEq, h1, true_or, iff_true]
    exact ⟨fun h => ⟨h.1.symm, h.2.symm⟩, fun h => ⟨h.1.symm, h.2.symm⟩⟩
  · rename_i h1
    split
    · rename_i h2
      simp only [Except.ok.injEq, Retrieved.mk.injEq, h2, or_true, iff_true]
      exact ⟨fun h => ⟨h.1.symm, h.2.symm⟩, fun h => ⟨h.1.symm, h.2.symm⟩⟩
    · rename_i h2
      simp only [Except.ok.injEq, Retrieved.mk.injEq, h1, h2, or_self, iff_false, Bool.not_eq_true]
      exact ⟨fun h => ⟨h.1.symm, h.2.symm⟩, fun h => ⟨h.1.symm, h.2.symm⟩⟩

theorem retrieve_fails {r : HttpReply} (t : Bool) (h : ¬ readsEnd r) : ∃ x, retrieve r t = .error x := by
  obtain ⟨x, hx⟩ := readLoop_fails t h (r.arrived.length + 1) 0 (Nat.zero_le _)
  exact ⟨x, by unfold retrieve; rw [hx]⟩

end Loc
