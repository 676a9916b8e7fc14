import Verif.Basic.M

/-
Weakest preconditions for the effect monad.
-/
namespace Dollar

@[simp] theorem MM.pure_bind' {σ α β : Type} (a : α) (f : α → MM σ β) :
    ((pure a : MM σ α) >>= f) = f a := rfl

/-- Every non-panicking run of `x` from `s` satisfies `Q` (success) or `E` (error). -/
def wp {σ α : Type} (x : MM σ α) (s : σ) (Q : α → σ → Prop) (E : Err → σ → Prop) : Prop :=
  match x s with
  | .ok a s' => Q a s'
  | .err e s' => E e s'
  | .panic => True

/-- `x` succeeds from `s` and satisfies `Q`. -/
def Runs {σ α : Type} (x : MM σ α) (s : σ) (Q : α → σ → Prop) : Prop :=
  match x s with
  | .ok a s' => Q a s'
  | .err _ _ => False
  | .panic => False

namespace wp
variable {σ α β : Type} {s : σ} {Q : α → σ → Prop} {E : Err → σ → Prop}

theorem mono {Q' : α → σ → Prop} {E' : Err → σ → Prop} {x : MM σ α} (h : wp x s Q E)
    (hq : ∀ a s', Q a s' → Q' a s') (he : ∀ e s', E e s' → E' e s') : wp x s Q' E' := by
  unfold wp at *
  cases hx : x s with
  | ok a s' => rw [hx] at h; exact hq _ _ h
  | err e s' => rw [hx] at h; exact he _ _ h
  | panic => trivial

@[simp] theorem bind_iff {x : MM σ α} {f : α → MM σ β} {Q : β → σ → Prop} :
    wp (x >>= f) s Q E ↔ wp x s (fun a s' => wp (f a) s' Q E) E := by
  unfold wp
  rw [MM.bind_apply]
  cases x s <;> simp

/-- Sequence a proven specification with the rest. -/
theorem seq {x : MM σ α} {f : α → MM σ β} {Q' : β → σ → Prop} {E' : Err → σ → Prop}
    (h : wp x s Q E) (hq : ∀ a s', Q a s' → wp (f a) s' Q' E')
    (he : ∀ e s', E e s' → E' e s') : wp (x >>= f) s Q' E' := by
  rw [bind_iff]
  exact h.mono hq he

@[simp] theorem pure_iff {a : α} : wp (pure a) s Q E ↔ Q a s := Iff.rfl
@[simp] theorem get_iff {Q : σ → σ → Prop} : wp MM.get s Q E ↔ Q s s := Iff.rfl
@[simp] theorem modify_iff {f : σ → σ} {Q : Unit → σ → Prop} :
    wp (MM.modify f) s Q E ↔ Q () (f s) := Iff.rfl
@[simp] theorem fail_iff {e : Err} : wp (MM.fail e) s Q E ↔ E e s := Iff.rfl
@[simp] theorem crash_iff : wp MM.crash s Q E ↔ True := Iff.rfl

theorem ite_iff {p : Prop} [Decidable p] {x y : MM σ α} :
    wp (if p then x else y) s Q E ↔ (p → wp x s Q E) ∧ (¬p → wp y s Q E) := by
  split <;> simp_all

theorem ite {p : Prop} [Decidable p] {x y : MM σ α}
    (hx : p → wp x s Q E) (hy : ¬p → wp y s Q E) : wp (if p then x else y) s Q E :=
  ite_iff.2 ⟨hx, hy⟩

@[simp] theorem ignore_iff {x : MM σ Unit} {Q : Unit → σ → Prop} :
    wp (MM.ignore x) s Q E ↔ wp x s Q (fun _ s' => Q () s') := by
  unfold wp
  rw [MM.ignore_apply]
  cases x s <;> simp

@[simp] theorem attempt_iff {x : MM σ Unit} {Q : Option Err → σ → Prop} :
    wp (MM.attempt x) s Q E ↔ wp x s (fun _ s' => Q none s') (fun e s' => Q (some e) s') := by
  unfold wp
  rw [MM.attempt_apply]
  cases x s <;> simp

theorem of_ok {x : MM σ α} {a : α} {s' : σ} (h : wp x s Q E) (hx : x s = .ok a s') : Q a s' := by
  unfold wp at h; rw [hx] at h; exact h

theorem of_err {x : MM σ α} {e : Err} {s' : σ} (h : wp x s Q E) (hx : x s = .err e s') : E e s' := by
  unfold wp at h; rw [hx] at h; exact h

/-- A specification from inversion of both outcomes. -/
theorem intro {x : MM σ α} (hok : ∀ a s', x s = .ok a s' → Q a s')
    (herr : ∀ e s', x s = .err e s' → E e s') : wp x s Q E := by
  unfold wp
  cases hx : x s with
  | ok a s' => exact hok _ _ hx
  | err e s' => exact herr _ _ hx
  | panic => trivial

end wp

namespace Runs
variable {σ α β : Type} {s : σ} {Q : α → σ → Prop}

theorem exists_ok {x : MM σ α} (h : Runs x s Q) : ∃ a s', x s = .ok a s' ∧ Q a s' := by
  unfold Runs at h
  cases hx : x s with
  | ok a s' => rw [hx] at h; exact ⟨a, s', rfl, h⟩
  | err e s' => rw [hx] at h; exact h.elim
  | panic => rw [hx] at h; exact h.elim

theorem of_ok {x : MM σ α} {a : α} {s' : σ} (hx : x s = .ok a s') (h : Q a s') : Runs x s Q := by
  unfold Runs; rw [hx]; exact h

theorem mono {Q' : α → σ → Prop} {x : MM σ α} (h : Runs x s Q)
    (hq : ∀ a s', Q a s' → Q' a s') : Runs x s Q' := by
  obtain ⟨a, s', hx, h⟩ := h.exists_ok
  exact of_ok hx (hq _ _ h)

@[simp] theorem bind_iff {x : MM σ α} {f : α → MM σ β} {Q : β → σ → Prop} :
    Runs (x >>= f) s Q ↔ Runs x s (fun a s' => Runs (f a) s' Q) := by
  unfold Runs
  rw [MM.bind_apply]
  cases x s <;> simp

theorem seq {x : MM σ α} {f : α → MM σ β} {Q' : β → σ → Prop}
    (h : Runs x s Q) (hq : ∀ a s', Q a s' → Runs (f a) s' Q') : Runs (x >>= f) s Q' := by
  rw [bind_iff]; exact h.mono hq

@[simp] theorem pure_iff {a : α} : Runs (pure a) s Q ↔ Q a s := Iff.rfl
@[simp] theorem get_iff {Q : σ → σ → Prop} : Runs MM.get s Q ↔ Q s s := Iff.rfl
@[simp] theorem modify_iff {f : σ → σ} {Q : Unit → σ → Prop} :
    Runs (MM.modify f) s Q ↔ Q () (f s) := Iff.rfl
@[simp] theorem fail_iff {e : Err} : Runs (MM.fail e) s Q ↔ False := Iff.rfl
@[simp] theorem crash_iff : Runs MM.crash s Q ↔ False := Iff.rfl

theorem ite_iff {p : Prop} [Decidable p] {x y : MM σ α} :
    Runs (if p then x else y) s Q ↔ (p ∧ Runs x s Q) ∨ (¬p ∧ Runs y s Q) := by
  split <;> simp_all

theorem of_wp {x : MM σ α} {P : α → σ → Prop} {E : Err → σ → Prop} (h : Runs x s P)
    (hw : wp x s Q E) : Runs x s (fun a s' => P a s' ∧ Q a s') := by
  obtain ⟨a, s', hx, h⟩ := h.exists_ok
  exact of_ok hx ⟨h, hw.of_ok hx⟩

end Runs

/-! ### Inversion of successful runs -/

namespace MM
variable {σ α β : Type}

theorem bind_ok {x : MM σ α} {f : α → MM σ β} {s : σ} {b : β} {s'' : σ} :
    (x >>= f) s = .ok b s'' ↔ ∃ a s', x s = .ok a s' ∧ f a s' = .ok b s'' := by
  rw [bind_apply]
  cases x s with
  | ok a s1 =>
    simp only [Res.ok.injEq]
    exact ⟨fun h => ⟨_, _, ⟨rfl, rfl⟩, h⟩, fun ⟨_, _, ⟨h1, h2⟩, h⟩ => by subst h1; subst h2; exact h⟩
  | err => simp
  | panic => simp

@[simp] theorem pure_ok {a b : α} {s s' : σ} : (pure a : MM σ α) s = .ok b s' ↔ a = b ∧ s = s' := by
  simp

@[simp] theorem get_ok {a s s' : σ} : (get : MM σ σ) s = .ok a s' ↔ s = a ∧ s = s' := by simp

@[simp] theorem modify_ok {f : σ → σ} {s s' : σ} {u : Unit} :
    (modify f : MM σ Unit) s = .ok u s' ↔ f s = s' := by simp

@[simp] theorem fail_ok {e : Err} {s s' : σ} {a : α} : ((fail e : MM σ α) s = .ok a s') ↔ False := by
  simp

@[simp] theorem crash_ok {s s' : σ} {a : α} : ((crash : MM σ α) s = .ok a s') ↔ False := by simp

theorem ite_ok {p : Prop} [Decidable p] {x y : MM σ α} {s s' : σ} {a : α} :
    (if p then x else y) s = .ok a s' ↔ (p ∧ x s = .ok a s') ∨ (¬p ∧ y s = .ok a s') := by
  split <;> simp_all

theorem attempt_ok {x : MM σ Unit} {s s' : σ} {e : Option Err} :
    (attempt x) s = .ok e s' ↔
      (e = none ∧ x s = .ok () s') ∨ (∃ er, e = some er ∧ x s = .err er s') := by
  rw [attempt_apply]
  cases x s with
  | ok a s1 => simp [eq_comm]
  | err e s1 =>
    simp only [Res.ok.injEq, reduceCtorEq, and_false, Res.err.injEq, false_or]
    constructor
    · rintro ⟨rfl, rfl⟩; exact ⟨_, rfl, rfl, rfl⟩
    · rintro ⟨er, rfl, rfl, rfl⟩; exact ⟨rfl, rfl⟩
  | panic => simp

theorem ignore_ok {x : MM σ Unit} {s s' : σ} {u : Unit} :
    (ignore x) s = .ok u s' ↔ x s = .ok () s' ∨ ∃ er, x s = .err er s' := by
  rw [ignore_apply]
  cases x s <;> simp

end MM
end Dollar
