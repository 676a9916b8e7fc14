import Verif.Model.Math
import Mathlib.Tactic.Linarith
import Mathlib.Tactic.Ring
import Mathlib.Tactic.Positivity

/-
Arithmetic of the rounding functions.
-/
namespace Dollar

theorem SCALE_pos : (0 : Int) < SCALE := by decide
theorem DEC_pos : (0 : Int) < DEC := by decide

theorem mul_SCALE_nonneg {a : Int} (h : 0 ≤ a) : 0 ≤ a * SCALE :=
  Int.mul_nonneg h SCALE_pos.le

/-- Truncated division of a non-negative number is floor division. -/
theorem tdiv_bounds {n d : Int} (hn : 0 ≤ n) (hd : 0 < d) :
    n.tdiv d * d ≤ n ∧ n < (n.tdiv d + 1) * d := by
  rw [Int.tdiv_eq_ediv_of_nonneg hn]
  have h1 := Int.ediv_mul_le n hd.ne'
  have h2 := Int.lt_ediv_add_one_mul_self n hd
  exact ⟨h1, h2⟩

theorem le_of_mul_le_lt {x q d n : Int} (hd : 0 < d) (h1 : x * d ≤ n) (h2 : n < (q + 1) * d) :
    x ≤ q := by
  have h : x * d < (q + 1) * d := lt_of_le_of_lt h1 h2
  have := lt_of_mul_lt_mul_right h hd.le
  omega

theorem tdiv_unique {n d q : Int} (hn : 0 ≤ n) (hd : 0 < d) (h1 : q * d ≤ n)
    (h2 : n < (q + 1) * d) : n.tdiv d = q := by
  have hb := tdiv_bounds hn hd
  have := le_of_mul_le_lt hd h1 hb.2
  have := le_of_mul_le_lt hd hb.1 h2
  omega

theorem tdiv_nonneg' {n d : Int} (hn : 0 ≤ n) (hd : 0 < d) : 0 ≤ n.tdiv d :=
  Int.tdiv_nonneg hn hd.le

theorem tdiv_mono {m n d : Int} (hm : 0 ≤ m) (hd : 0 < d) (h : m ≤ n) : m.tdiv d ≤ n.tdiv d :=
  le_of_mul_le_lt hd ((tdiv_bounds hm hd).1.trans h) (tdiv_bounds (hm.trans h) hd).2

theorem down_bounds {a i : Int} (ha : 0 ≤ a) (hi : 0 < i) :
    roundedDown a i * i ≤ a * SCALE ∧ a * SCALE < (roundedDown a i + 1) * i :=
  tdiv_bounds (mul_SCALE_nonneg ha) hi

theorem up_bounds {a i : Int} (ha : 0 ≤ a) (hi : 0 < i) :
    (roundedUp a i - 1) * i < a * SCALE ∧ a * SCALE ≤ roundedUp a i * i := by
  have h := tdiv_bounds (n := a * SCALE + i - 1) (d := i)
    (by have := mul_SCALE_nonneg ha; omega) hi
  unfold roundedUp
  constructor
  · have := h.1; rw [sub_mul]; omega
  · have := h.2; rw [add_mul] at this; omega

theorem present_bounds {p i : Int} (hp : 0 ≤ p) (hi : 0 < i) :
    present p i * SCALE ≤ p * i ∧ p * i < (present p i + 1) * SCALE :=
  tdiv_bounds (Int.mul_nonneg hp hi.le) SCALE_pos

theorem down_nonneg {a i : Int} (ha : 0 ≤ a) (hi : 0 < i) : 0 ≤ roundedDown a i :=
  tdiv_nonneg' (mul_SCALE_nonneg ha) hi

theorem down_le_up {a i : Int} (ha : 0 ≤ a) (hi : 0 < i) : roundedDown a i ≤ roundedUp a i := by
  have h1 := down_bounds ha hi
  have h2 := up_bounds ha hi
  have : roundedDown a i * i ≤ roundedUp a i * i := h1.1.trans h2.2
  exact le_of_mul_le_mul_right this hi

theorem up_le_down_succ {a i : Int} (ha : 0 ≤ a) (hi : 0 < i) :
    roundedUp a i ≤ roundedDown a i + 1 := by
  have h1 := down_bounds ha hi
  have h2 := up_bounds ha hi
  have : (roundedUp a i - 1) * i < (roundedDown a i + 1) * i := h2.1.trans h1.2
  have := lt_of_mul_lt_mul_right this hi.le
  omega

theorem up_nonneg {a i : Int} (ha : 0 ≤ a) (hi : 0 < i) : 0 ≤ roundedUp a i :=
  (down_nonneg ha hi).trans (down_le_up ha hi)

theorem down_add_le {a b i : Int} (ha : 0 ≤ a) (hb : 0 ≤ b) (hi : 0 < i) :
    roundedDown a i + roundedDown b i ≤ roundedDown (a + b) i := by
  have h1 := down_bounds ha hi
  have h2 := down_bounds hb hi
  have h3 := down_bounds (add_nonneg ha hb) hi
  refine le_of_mul_le_lt hi ?_ h3.2
  rw [add_mul, add_mul]; omega

theorem down_mono {a b i : Int} (ha : 0 ≤ a) (h : a ≤ b) (hi : 0 < i) :
    roundedDown a i ≤ roundedDown b i := by
  have := down_add_le ha (sub_nonneg.2 h) hi
  have h2 := down_nonneg (sub_nonneg.2 h) hi
  rw [show a + (b - a) = b by ring] at this
  omega

theorem down_zero (i : Int) : roundedDown 0 i = 0 := by simp [roundedDown]

theorem present_mono_index {p i j : Int} (hp : 0 ≤ p) (hi : 0 < i) (h : i ≤ j) :
    present p i ≤ present p j :=
  tdiv_mono (Int.mul_nonneg hp hi.le) SCALE_pos (Int.mul_le_mul_of_nonneg_left h hp)

theorem present_nonneg {p i : Int} (hp : 0 ≤ p) (hi : 0 < i) : 0 ≤ present p i :=
  tdiv_nonneg' (Int.mul_nonneg hp hi.le) SCALE_pos

end Dollar
