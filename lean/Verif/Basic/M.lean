/-
The effect monad of the model (infrastructure, no repository semantics).

A computation reads and writes the whole chain state.  A Go `error` return keeps
every write made so far (the store is not rolled back by returning an error); a
Go `panic` aborts.  Nothing in the modelled code recovers from a panic, so a
panic carries no state.
-/
namespace Dollar

/-- Errors the modelled functions return. -/
inductive Err
  | paused | invalidAuthority | decreasingIndex | badAddress
  | insufficientFunds | yieldAccount | blockedRecipient
  | portalPaused | invalidPeer | invalidMessage | invalidBridgePath | invalidRecipient
  | noOwner | notOwner | sameOwner | invalidVAA | alreadyDelivered | malformed
  | wrongChain | wrongToken | postFailed
  | actionPaused | invalidAmount | invalidVaultType | samePositionTime | invalidPauseType
  | unknownChannel | badIdentifier | unknownToken | badRouter | badHexRecipient
  | transferFailed | ibcDisabled
  deriving DecidableEq, Repr

/-- Result of a computation started in some state. -/
inductive Res (σ α : Type)
  | ok (a : α) (s : σ)
  | err (e : Err) (s : σ)
  | panic

/-- State-threading computations with errors and panics. -/
def MM (σ α : Type) := σ → Res σ α

namespace MM
variable {σ α β : Type}

@[inline] protected def pure (a : α) : MM σ α := fun s => .ok a s

@[inline] protected def bind (x : MM σ α) (f : α → MM σ β) : MM σ β := fun s =>
  match x s with
  | .ok a s' => f a s'
  | .err e s' => .err e s'
  | .panic => .panic

instance : Monad (MM σ) where
  pure := MM.pure
  bind := MM.bind

/-- Read the state. -/
def get : MM σ σ := fun s => .ok s s
/-- Read a projection of the state. -/
def gets (f : σ → α) : MM σ α := fun s => .ok (f s) s
/-- Update the state. -/
def modify (f : σ → σ) : MM σ Unit := fun s => .ok () (f s)
/-- Return a Go error. -/
def fail (e : Err) : MM σ α := fun s => .err e s
/-- Go panic. -/
def crash : MM σ α := fun _ => .panic
/-- `_ = f(...)`: run, ignore a returned error (a panic still propagates). -/
def ignore (x : MM σ Unit) : MM σ Unit := fun s =>
  match x s with
  | .ok _ s' => .ok () s'
  | .err _ s' => .ok () s'
  | .panic => .panic
/-- `_, err := f(...)`: run and turn the returned error into a value. -/
def attempt (x : MM σ Unit) : MM σ (Option Err) := fun s =>
  match x s with
  | .ok _ s' => .ok none s'
  | .err e s' => .ok (some e) s'
  | .panic => .panic

@[simp] theorem pure_apply (a : α) (s : σ) : (pure a : MM σ α) s = .ok a s := rfl
@[simp] theorem get_apply (s : σ) : (get : MM σ σ) s = .ok s s := rfl
@[simp] theorem gets_apply (f : σ → α) (s : σ) : (gets f : MM σ α) s = .ok (f s) s := rfl
@[simp] theorem modify_apply (f : σ → σ) (s : σ) : (modify f : MM σ Unit) s = .ok () (f s) := rfl
@[simp] theorem fail_apply (e : Err) (s : σ) : (fail e : MM σ α) s = .err e s := rfl
@[simp] theorem crash_apply (s : σ) : (crash : MM σ α) s = .panic := rfl
theorem bind_apply (x : MM σ α) (f : α → MM σ β) (s : σ) :
    (x >>= f) s = match x s with
      | .ok a s' => f a s'
      | .err e s' => .err e s'
      | .panic => .panic := rfl
theorem ignore_apply (x : MM σ Unit) (s : σ) : (ignore x) s = match x s with
  | .ok _ s' => .ok () s'
  | .err _ s' => .ok () s'
  | .panic => .panic := rfl
theorem attempt_apply (x : MM σ Unit) (s : σ) : (attempt x) s = match x s with
  | .ok _ s' => .ok none s'
  | .err e s' => .ok (some e) s'
  | .panic => .panic := rfl

end MM

namespace Res
variable {σ α : Type}

/-- The state a finished (non-panicking) computation leaves behind satisfies `P`. -/
def Ends (r : Res σ α) (P : σ → Prop) : Prop :=
  match r with
  | .ok _ s => P s
  | .err _ s => P s
  | .panic => True

/-- The computation succeeded. -/
def isOk (r : Res σ α) : Bool :=
  match r with
  | .ok _ _ => true
  | _ => false

/-- If the computation succeeded, value and state satisfy `P`. -/
def Succ (r : Res σ α) (P : α → σ → Prop) : Prop :=
  match r with
  | .ok a s => P a s
  | .err _ _ => True
  | .panic => True

end Res

/-- Every non-panicking run of `x` (successful or not) relates start and end state by `R`. -/
def Steps {σ α : Type} (R : σ → σ → Prop) (x : MM σ α) : Prop := ∀ s, (x s).Ends (R s)

namespace Steps
variable {σ α β : Type} {R : σ → σ → Prop}

theorem pure (hr : ∀ s, R s s) (a : α) : Steps R (Pure.pure a : MM σ α) := fun s => hr s
theorem get (hr : ∀ s, R s s) : Steps R (MM.get : MM σ σ) := fun s => hr s
theorem gets (hr : ∀ s, R s s) (f : σ → α) : Steps R (MM.gets f : MM σ α) := fun s => hr s
theorem fail (hr : ∀ s, R s s) (e : Err) : Steps R (MM.fail e : MM σ α) := fun s => hr s
theorem crash : Steps R (MM.crash : MM σ α) := fun _ => trivial
theorem modify {f : σ → σ} (h : ∀ s, R s (f s)) : Steps R (MM.modify f : MM σ Unit) := fun s => h s

theorem bind (ht : ∀ a b c, R a b → R b c → R a c) {x : MM σ α} {f : α → MM σ β}
    (hx : Steps R x) (hf : ∀ a, Steps R (f a)) : Steps R (x >>= f) := by
  intro s
  have h := hx s
  rw [MM.bind_apply]
  cases hxs : x s with
  | ok a s' =>
    rw [hxs] at h
    have h2 := hf a s'
    simp only
    cases hfs : f a s' with
    | ok b s'' => rw [hfs] at h2; exact ht _ _ _ h h2
    | err e s'' => rw [hfs] at h2; exact ht _ _ _ h h2
    | panic => trivial
  | err e s' => rw [hxs] at h; exact h
  | panic => trivial

theorem ite {p : Prop} [Decidable p] {x y : MM σ α} (hx : p → Steps R x) (hy : ¬p → Steps R y) :
    Steps R (if p then x else y) := by
  split
  · exact hx ‹_›
  · exact hy ‹_›

theorem ignore {x : MM σ Unit} (hx : Steps R x) : Steps R (MM.ignore x) := by
  intro s
  have h := hx s
  rw [MM.ignore_apply]
  cases hxs : x s <;> rw [hxs] at h <;> exact h

theorem attempt {x : MM σ Unit} (hx : Steps R x) : Steps R (MM.attempt x) := by
  intro s
  have h := hx s
  rw [MM.attempt_apply]
  cases hxs : x s <;> rw [hxs] at h <;> exact h

end Steps

end Dollar
