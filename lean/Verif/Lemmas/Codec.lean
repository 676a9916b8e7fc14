import Verif.Model.Ntt

/-
Slices of concatenations.
-/
namespace Dollar

theorem Sl.slice_some {s r : Sl} {a b : Nat} (h : s.slice a b = some r) :
    a ≤ b ∧ b ≤ s.arr.length ∧ r = ⟨s.arr.drop a, b - a⟩ := by
  unfold Sl.slice at h
  split at h
  · next hc => cases h; exact ⟨hc.1, hc.2, rfl⟩
  · cases h

theorem Sl.slice_none {s : Sl} {a b : Nat} (h : s.slice a b = none) (hab : a ≤ b) :
    s.arr.length < b := by
  unfold Sl.slice at h
  split at h
  · cases h
  · next hc => by_contra hn; exact hc ⟨hab, by omega⟩

theorem Sl.slice_eq {s : Sl} {a b : Nat} (h1 : a ≤ b) (h2 : b ≤ s.arr.length) :
    s.slice a b = some ⟨s.arr.drop a, b - a⟩ := by
  unfold Sl.slice; rw [if_pos ⟨h1, h2⟩]

theorem Sl.sliceFrom_eq {s : Sl} {a : Nat} (h1 : a ≤ s.len) :
    s.sliceFrom a = some ⟨s.arr.drop a, s.len - a⟩ := by
  unfold Sl.sliceFrom; rw [if_pos h1]

/-- The bytes `a..b` of a list. -/
def cut (l : Bytes) (a b : Nat) : Bytes := (l.drop a).take (b - a)

theorem cut_append (x y z : Bytes) {a b : Nat} (ha : x.length = a) (hb : y.length = b - a) :
    cut (x ++ y ++ z) a b = y := by
  unfold cut
  rw [List.append_assoc, ← ha, List.drop_left, ha, ← hb, List.take_left]

theorem take_take_drop (l : Bytes) (a b : Nat) (h : a ≤ b) : l.take b = l.take a ++ cut l a b := by
  unfold cut
  conv_lhs => rw [show b = a + (b - a) by omega]
  rw [List.take_add]

theorem cut_length (l : Bytes) {a b : Nat} (h : b ≤ l.length) : (cut l a b).length = b - a := by
  unfold cut
  rw [List.length_take, List.length_drop]
  omega

theorem PRes.bind_ok {α β : Type} {x : PRes α} {f : α → PRes β} {b : β} :
    (x >>= f) = .ok b ↔ ∃ a, x = .ok a ∧ f a = .ok b := by
  cases x with
  | ok a => simp
  | err => simp
  | panic => simp

theorem PRes.bind_panic {α β : Type} {x : PRes α} {f : α → PRes β} :
    (x >>= f) = .panic ↔ x = .panic ∨ ∃ a, x = .ok a ∧ f a = .panic := by
  cases x with
  | ok a => simp
  | err => simp
  | panic => simp

theorem PRes.ofSlice_ok {α : Type} {o : Option α} {a : α} : PRes.ofSlice o = .ok a ↔ o = some a := by
  cases o <;> simp

theorem PRes.ofSlice_panic {α : Type} {o : Option α} : PRes.ofSlice o = .panic ↔ o = none := by
  cases o <;> simp

theorem toBE_beNat_two {b : Bytes} (h : b.length = 2) : toBE 2 (beNat b) = b := by
  rw [← h]; exact toBE_beNat b

theorem toBE_inj {n a b : Nat} (ha : a < 256 ^ n) (hb : b < 256 ^ n) (h : toBE n a = toBE n b) : a = b := by
  rw [← beNat_toBE n a ha, ← beNat_toBE n b hb, h]

end Dollar

namespace Dollar

/-- A slice expression on `x ++ y ++ z` that selects `y`. -/
theorem Sl.slice_mid {s : Sl} {x y z : Bytes} {a b : Nat} (h : s.arr = x ++ y ++ z) (ha : x.length = a)
    (hb : a + y.length = b) : ∃ r, s.slice a b = some r ∧ r.bytes = y := by
  have hlen : b ≤ s.arr.length := by rw [h]; simp; omega
  refine ⟨_, Sl.slice_eq (by omega) hlen, ?_⟩
  show (s.arr.drop a).take (b - a) = y
  rw [h]
  exact cut_append x y z ha (by omega)

theorem Sl.slice_bytes {s r : Sl} {a b : Nat} (h : s.slice a b = some r) : r.bytes = cut s.arr a b := by
  obtain ⟨_, _, rfl⟩ := Sl.slice_some h
  rfl

end Dollar
