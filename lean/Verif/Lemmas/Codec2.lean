import Verif.Lemmas.Codec

/-
Parsed slices are well formed.
-/
namespace Dollar

theorem Sl.slice_wf {s r : Sl} {a b : Nat} (h : s.slice a b = some r) : r.WF := by
  unfold Sl.slice at h
  split at h
  · cases h
    unfold Sl.WF
    rw [List.length_drop]
    dsimp only
    omega
  · cases h

theorem Sl.sliceFrom_wf {s r : Sl} {a : Nat} (hw : s.WF) (h : s.sliceFrom a = some r) : r.WF := by
  unfold Sl.sliceFrom at h
  unfold Sl.WF at *
  split at h
  · cases h
    rw [List.length_drop]
    dsimp only
    omega
  · cases h

/-- A well formed slice is its visible contents followed by hidden capacity. -/
theorem Sl.eq_ofBytes {s : Sl} (hw : s.WF) : s = Sl.ofBytes s.bytes (s.arr.drop s.len) := by
  cases s with
  | mk arr len =>
    unfold Sl.ofBytes Sl.bytes
    unfold Sl.WF at hw
    simp only at hw ⊢
    rw [List.take_append_drop, List.length_take, Nat.min_eq_left hw]

theorem parseTransceiver_wf {bz : Sl} {r : TransceiverMessage Sl} (h : parseTransceiver bz = .ok r) :
    r.sourceManager.WF ∧ r.recipientManager.WF ∧ r.managerPayload.WF ∧ r.transceiverPayload.WF := by
  unfold parseTransceiver at h
  simp only [PRes.bind_ok, PRes.ofSlice_ok] at h
  obtain ⟨p, hp, h⟩ := h
  split at h
  · cases h
  · simp only [PRes.bind_ok, PRes.ofSlice_ok] at h
    obtain ⟨a, ha, b, hb, l, hl, m, hm, l2, hl2, t, ht, h⟩ := h
    cases h
    exact ⟨Sl.slice_wf ha, Sl.slice_wf hb, Sl.slice_wf hm, Sl.slice_wf ht⟩

theorem parseManager_wf {bz : Sl} (hw : bz.WF) {r : ManagerMessage Sl} (h : parseManager bz = .ok r) :
    r.id.WF ∧ r.sender.WF ∧ r.payload.WF := by
  unfold parseManager at h
  split at h
  · cases h
  · simp only [PRes.bind_ok, PRes.ofSlice_ok] at h
    obtain ⟨a, ha, b, hb, l, hl, m, hm, h⟩ := h
    split at h
    · cases h
    · cases h
      exact ⟨Sl.slice_wf ha, Sl.slice_wf hb, Sl.sliceFrom_wf hw hm⟩

theorem parseAdditionalOf_wf {bz : Sl} (hw : bz.WF) {r : Sl} (h : parseAdditionalOf bz = .ok r) : r.WF := by
  unfold parseAdditionalOf at h
  split at h
  · split at h
    · cases h
    · simp only [PRes.bind_ok, PRes.ofSlice_ok] at h
      obtain ⟨l, hl, m, hm, h⟩ := h
      split at h
      · cases h
      · cases h; exact Sl.sliceFrom_wf hw hm
  · cases h; exact Nat.le_refl 0

theorem parseNtt_wf {bz : Sl} (hw : bz.WF) {r : NativeTokenTransfer Sl} (h : parseNtt bz = .ok r) :
    r.recipient.WF ∧ r.recipient.len = 32 ∧ r.additional.WF := by
  unfold parseNtt at h
  split at h
  · cases h
  · simp only [PRes.bind_ok, PRes.ofSlice_ok] at h
    obtain ⟨p, hp, h⟩ := h
    split at h
    · cases h
    · simp only [PRes.bind_ok, PRes.ofSlice_ok] at h
      obtain ⟨a, ha, b, hb, d, hd, e, he, f, hf, h⟩ := h
      cases h
      refine ⟨Sl.slice_wf hd, ?_, parseAdditionalOf_wf hw hf⟩
      unfold Sl.slice at hd
      split at hd
      · cases hd; rfl
      · cases hd

end Dollar
