import Mathlib.Data.List.Induction
/-
Go byte slices and big-endian integers (infrastructure, no repository semantics).

A Go slice is a window of length `len` onto a backing array; the expression
`s[a:b]` is allowed up to the *capacity*, not the length, so a parser without a
length check may read bytes past the end of its input.  `Sl.arr` holds the bytes
from the start of the window to the end of the backing array, so the capacity is
`arr.length`; `Sl.len` is the length.
-/
namespace Dollar

abbrev Bytes := List UInt8

/-- A Go `[]byte` value. -/
structure Sl where
  arr : Bytes
  len : Nat
  deriving DecidableEq, Repr

namespace Sl

/-- The visible contents. -/
def bytes (s : Sl) : Bytes := s.arr.take s.len

/-- Every Go slice satisfies `len ≤ cap`. -/
def WF (s : Sl) : Prop := s.len ≤ s.arr.length

/-- A slice with contents `b` and hidden capacity bytes `tail`. -/
def ofBytes (b tail : Bytes) : Sl := ⟨b ++ tail, b.length⟩

theorem wf_ofBytes (b tail : Bytes) : (ofBytes b tail).WF := by
  simp [WF, ofBytes]

@[simp] theorem bytes_ofBytes (b tail : Bytes) : (ofBytes b tail).bytes = b := by
  simp [bytes, ofBytes]

/-- `s[a:b]`; `none` is a run-time panic (bounds are checked against the capacity). -/
def slice (s : Sl) (a b : Nat) : Option Sl :=
  if a ≤ b ∧ b ≤ s.arr.length then some ⟨s.arr.drop a, b - a⟩ else none

/-- `s[a:]` (upper bound is the length). -/
def sliceFrom (s : Sl) (a : Nat) : Option Sl :=
  if a ≤ s.len then some ⟨s.arr.drop a, s.len - a⟩ else none

end Sl

/-- `n` bytes, big endian, of `v` (higher bits are dropped, as a Go conversion does). -/
def toBE : Nat → Nat → Bytes
  | 0, _ => []
  | n + 1, v => toBE n (v / 256) ++ [UInt8.ofNat (v % 256)]

/-- Big-endian value of a byte string. -/
def beNat (b : Bytes) : Nat := b.foldl (fun acc x => acc * 256 + x.toNat) 0

/-- `int64(u)` for a 64-bit unsigned value. -/
def toInt64 (n : Nat) : Int := if n < 2 ^ 63 then (n : Int) else (n : Int) - 2 ^ 64

/-- `uint64(i)`. -/
def toUint64 (i : Int) : Nat := (i % 2 ^ 64).toNat

/-- Result of a byte parser: value, returned error, or run-time panic. -/
inductive PRes (α : Type)
  | ok (a : α)
  | err
  | panic
  deriving DecidableEq, Repr

namespace PRes
variable {α β : Type}

protected def bind (x : PRes α) (f : α → PRes β) : PRes β :=
  match x with
  | .ok a => f a
  | .err => .err
  | .panic => .panic

instance : Monad PRes where
  pure := PRes.ok
  bind := PRes.bind

/-- Turn a bounds-checked slice expression into a parser step. -/
def ofSlice (o : Option α) : PRes α :=
  match o with
  | some a => .ok a
  | none => .panic

@[simp] theorem pure_eq (a : α) : (pure a : PRes α) = .ok a := rfl
@[simp] theorem ok_bind (a : α) (f : α → PRes β) : ((PRes.ok a) >>= f) = f a := rfl
@[simp] theorem err_bind (f : α → PRes β) : ((PRes.err : PRes α) >>= f) = .err := rfl
@[simp] theorem panic_bind (f : α → PRes β) : ((PRes.panic : PRes α) >>= f) = .panic := rfl
@[simp] theorem ofSlice_some (a : α) : ofSlice (some a) = .ok a := rfl
@[simp] theorem ofSlice_none : ofSlice (none : Option α) = .panic := rfl

end PRes

/-! ### Big-endian round trip -/

@[simp] theorem toBE_length (n v : Nat) : (toBE n v).length = n := by
  induction n generalizing v with
  | zero => rfl
  | succ n ih => simp [toBE, ih]

theorem beNat_append (a : Bytes) (x : UInt8) : beNat (a ++ [x]) = beNat a * 256 + x.toNat := by
  simp [beNat, List.foldl_append]

theorem beNat_toBE_mod (n v : Nat) : beNat (toBE n v) = v % 256 ^ n := by
  induction n generalizing v with
  | zero => simp [toBE, beNat]; omega
  | succ n ih =>
    rw [toBE, beNat_append, ih]
    have h1 : (UInt8.ofNat (v % 256)).toNat = v % 256 := by
      simp
    rw [h1, Nat.pow_succ, Nat.mul_comm (256 ^ n) 256, Nat.mod_mul]
    omega

theorem beNat_toBE (n v : Nat) (h : v < 256 ^ n) : beNat (toBE n v) = v := by
  rw [beNat_toBE_mod, Nat.mod_eq_of_lt h]

theorem beNat_lt (b : Bytes) : beNat b < 256 ^ b.length := by
  induction b using List.reverseRecOn with
  | nil => simp [beNat]
  | append_singleton a x ih =>
    rw [beNat_append]
    have := x.toNat_lt
    simp only [List.length_append, List.length_singleton, Nat.pow_succ]
    omega

theorem toBE_beNat (b : Bytes) : toBE b.length (beNat b) = b := by
  induction b using List.reverseRecOn with
  | nil => rfl
  | append_singleton a x ih =>
    rw [beNat_append]
    have hx := x.toNat_lt
    simp only [List.length_append, List.length_singleton, toBE]
    rw [show (beNat a * 256 + x.toNat) / 256 = beNat a by omega,
      show (beNat a * 256 + x.toNat) % 256 = x.toNat by omega, ih]
    simp

theorem toInt64_toUint64 (i : Int) (h1 : -2 ^ 63 ≤ i) (h2 : i < 2 ^ 63) :
    toInt64 (toUint64 i) = i := by
  unfold toInt64 toUint64
  by_cases h : 0 ≤ i
  · rw [Int.emod_eq_of_lt h (by omega)]
    split <;> omega
  · have : i % 2 ^ 64 = i + 2 ^ 64 := by
      omega
    rw [this]
    split <;> omega

theorem toUint64_lt (i : Int) : toUint64 i < 2 ^ 64 := by
  unfold toUint64; omega

theorem toUint64_toInt64 (n : Nat) (h : n < 2 ^ 64) : toUint64 (toInt64 n) = n := by
  unfold toUint64 toInt64
  split <;> omega

theorem toInt64_range (n : Nat) (h : n < 2 ^ 64) : -2 ^ 63 ≤ toInt64 n ∧ toInt64 n < 2 ^ 63 := by
  unfold toInt64
  split <;> omega

end Dollar
