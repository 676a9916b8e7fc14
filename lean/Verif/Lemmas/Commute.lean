import Verif.Lemmas.BlindExec
import Verif.Lemmas.Order
import Verif.Lemmas.Shape
import Verif.Lemmas.VInv2

/-
The effects of a user's messages as sums, which can be added in any order.
-/
set_option linter.unusedSimpArgs false
namespace Dollar
open MM Spec

section
variable {K : Type} [DecidableEq K] [KeyOrd K]

/-- Add to an entry. -/
def bump (m : KV K Int) (k : K) (d : Int) : KV K Int := m.set k ((m.get? k).getD 0 + d)
/-- Add to several entries. -/
def bumps (m : KV K Int) (l : List (K × Int)) : KV K Int := l.foldl (fun m e => bump m e.1 e.2) m

theorem bump_get? (m : KV K Int) (k x : K) (d : Int) :
    (bump m k d).get? x = if x = k then some ((m.get? k).getD 0 + d) else m.get? x := by
  unfold bump; rw [KV.get?_set]

variable [LawfulKeyOrd K]

theorem bump_sorted {m : KV K Int} (h : m.Sorted) (k : K) (d : Int) : (bump m k d).Sorted := KV.sorted_set _ _ h

theorem bumps_sorted {m : KV K Int} (h : m.Sorted) (l : List (K × Int)) : (bumps m l).Sorted := by
  induction l generalizing m with
  | nil => exact h
  | cons e t ih => exact ih (bump_sorted h _ _)

theorem bump_comm {m : KV K Int} (h : m.Sorted) (a b : K) (x y : Int) :
    bump (bump m a x) b y = bump (bump m b y) a x := by
  refine KV.ext_of_sorted (bump_sorted (bump_sorted h _ _) _ _) (bump_sorted (bump_sorted h _ _) _ _) fun k => ?_
  simp only [bump_get?]
  by_cases hab : a = b
  · subst hab
    by_cases hk : k = a
    · simp only [hk, if_true, Option.getD_some]; congr 1; omega
    · simp only [hk, if_false]
  · have hba : ¬ b = a := fun e => hab e.symm
    by_cases h1 : k = a
    · subst h1; simp only [hab, hba, if_true, if_false]
    · by_cases h2 : k = b
      · subst h2; simp only [hab, hba, h1, if_true, if_false]
      · simp only [h1, h2, if_false]

theorem bumps_bump {m : KV K Int} (h : m.Sorted) (a : K) (x : Int) (l : List (K × Int)) :
    bumps (bump m a x) l = bump (bumps m l) a x := by
  induction l generalizing m with
  | nil => rfl
  | cons e t ih =>
    show bumps (bump (bump m a x) e.1 e.2) t = bump (bumps (bump m e.1 e.2) t) a x
    rw [bump_comm h, ih (bump_sorted h _ _)]

theorem bumps_comm {m : KV K Int} (h : m.Sorted) (l l' : List (K × Int)) :
    bumps (bumps m l) l' = bumps (bumps m l') l := by
  induction l generalizing m with
  | nil => rfl
  | cons e t ih =>
    show bumps (bumps (bump m e.1 e.2) t) l' = bumps (bump (bumps m l') e.1 e.2) t
    rw [ih (bump_sorted h _ _), bumps_bump h]

omit [LawfulKeyOrd K] in
theorem bumps_append (m : KV K Int) (l l' : List (K × Int)) : bumps m (l ++ l') = bumps (bumps m l) l' := by
  unfold bumps; rw [List.foldl_append]

/-- What the additions to one entry amount to. -/
def added (l : List (K × Int)) (k : K) : Int := (l.map fun e => if e.1 = k then e.2 else 0).sum

omit [LawfulKeyOrd K] in
theorem bumps_getD (m : KV K Int) (l : List (K × Int)) (k : K) :
    ((bumps m l).get? k).getD 0 = (m.get? k).getD 0 + added l k := by
  induction l generalizing m with
  | nil => simp [bumps, added]
  | cons e t ih =>
    show ((bumps (bump m e.1 e.2) t).get? k).getD 0 = _
    rw [ih, bump_get?]
    unfold added
    rw [List.map_cons, List.sum_cons]
    by_cases h : k = e.1
    · subst h; simp; omega
    · rw [if_neg h, if_neg fun e => h e.symm]; omega

end

/-- What a message adds where. -/
structure Effect where
  bal : List (Addr × Int) := []
  prin : List (Addr × Int) := []
  total : Int := 0
  supply : Int := 0
  nonce : Nat := 0
  pos : Option ((Addr × Int × Int) × Position) := none
  flex : Int := 0

/-- Positions after the effect. -/
def Effect.posAfter (e : Effect) (m : KV (Addr × Int × Int) Position) : KV (Addr × Int × Int) Position :=
  match e.pos with
  | none => m
  | some kv => m.set kv.1 kv.2

/-- The state after the effect. -/
def Effect.on (e : Effect) (s : State) : State :=
  { s with
    bal := bumps s.bal e.bal, principal := bumps s.principal e.prin, totalPrincipal := s.totalPrincipal + e.total,
    supply := s.supply + e.supply, nonce := if e.nonce = 0 then s.nonce else (s.nonce + e.nonce) % 2 ^ 32,
    positions := e.posAfter s.positions, totalFlexible := s.totalFlexible + e.flex }

/-- Effects can be added in any order, unless both write the same position. -/
theorem Effect.comm {e f : Effect} {s : State} (hb : s.bal.Sorted) (hp : s.principal.Sorted) (hq : s.positions.Sorted)
    (hne : ∀ a b, e.pos = some a → f.pos = some b → a.1 ≠ b.1) : f.on (e.on s) = e.on (f.on s) := by
  have h1 := bumps_comm hb e.bal f.bal
  have h2 := bumps_comm hp e.prin f.prin
  have h3 : f.posAfter (e.posAfter s.positions) = e.posAfter (f.posAfter s.positions) := by
    unfold posAfter
    cases he : e.pos with
    | none => rfl
    | some a =>
      cases hf : f.pos with
      | none => rfl
      | some b => exact set_comm hq (hne a b he hf) _ _
  have h4 : ∀ n : Nat, (if f.nonce = 0 then (if e.nonce = 0 then n else (n + e.nonce) % 2 ^ 32)
      else ((if e.nonce = 0 then n else (n + e.nonce) % 2 ^ 32) + f.nonce) % 2 ^ 32) =
      (if e.nonce = 0 then (if f.nonce = 0 then n else (n + f.nonce) % 2 ^ 32)
      else ((if f.nonce = 0 then n else (n + f.nonce) % 2 ^ 32) + e.nonce) % 2 ^ 32) := by
    intro n
    by_cases h : f.nonce = 0 <;> by_cases h' : e.nonce = 0 <;> simp only [h, h', if_true, if_false]
    omega
  unfold on
  simp only [h1, h2, h3, h4]
  congr 1 <;> omega

theorem unrecorded_on (e : Effect) (s : State) : unrecorded (e.on s) = e.on (unrecorded s) := rfl

/-! ### Transfers -/

/-- A transfer by a user. -/
def Effect.send (c : Cfg) (index : Int) (a b : Addr) (x : Int) : Effect :=
  if x = 0 then {} else
  { bal := [(a, -x), (b, x)]
    prin := (a, -roundedUp x index) :: if b = c.moduleAddr then [] else [(b, roundedUp x index)]
    total := if b = c.moduleAddr then -roundedUp x index else 0 }

theorem Effect.on_empty (s : State) : ({} : Effect).on s = s := by
  unfold on posAfter bumps
  simp only [List.foldl_nil, add_zero, if_true]

theorem restrictSender_on {c : Cfg} {a : Addr} {p : Int} {s s' : State} {u : Unit} (hm : a ≠ c.moduleAddr)
    (h : restrictSender c a p s = .ok u s') : unrecorded s' = ({ prin := [(a, -p)] } : Effect).on (unrecorded s) := by
  rw [← unrecorded_on]
  unfold restrictSender at h
  rw [if_neg hm] at h
  simp only [addPrincipal, bind_apply, modify_apply, get_apply] at h
  rw [ite_ok] at h
  rcases h with ⟨_, h⟩ | ⟨_, h⟩
  · have h := modify_ok.1 h
    subst h
    simp only [Effect.on, Effect.posAfter, add_zero, if_true]
    rfl
  · obtain ⟨_, rfl⟩ := pure_ok.1 h
    simp only [Effect.on, Effect.posAfter, add_zero, if_true]
    rfl

theorem restrictRecipient_on {c : Cfg} {a b : Addr} {x i p : Int} {s s' : State} {u : Unit} (hm : a ≠ c.moduleAddr)
    (h : restrictRecipient c a b x i p s = .ok u s') :
    unrecorded s' = ({
      prin := if b = c.moduleAddr then [] else [(b, p)]
      total := if b = c.moduleAddr then -p else 0 } : Effect).on (unrecorded s) := by
  rw [← unrecorded_on]
  unfold restrictRecipient at h
  by_cases hb : b = c.moduleAddr
  · rw [if_pos hb] at h
    have h := modify_ok.1 h
    subst h
    simp only [Effect.on, Effect.posAfter, add_zero, if_true, hb]
    rfl
  · rw [if_neg hb, if_neg hm] at h
    simp only [addPrincipal, bind_apply, modify_apply, get_apply, pure_apply] at h
    rw [ite_ok] at h
    rcases h with ⟨_, h⟩ | ⟨_, h⟩
    · have h := modify_ok.1 h
      subst h
      simp only [Effect.on, Effect.posAfter, add_zero, if_true, hb, if_false]
      rfl
    · obtain ⟨_, rfl⟩ := pure_ok.1 h
      simp only [Effect.on, Effect.posAfter, add_zero, if_true, hb, if_false]
      rfl

theorem unrecorded_index {s : State} : (unrecorded s).index = s.index := rfl

/-- Effects one after the other, when neither has a position or a nonce. -/
theorem Effect.on_on {e f : Effect} {s : State} (h1 : e.nonce = 0) (h2 : f.nonce = 0) (h3 : e.pos = none)
    (h4 : f.pos = none) : f.on (e.on s) = ({
      bal := e.bal ++ f.bal, prin := e.prin ++ f.prin, total := e.total + f.total, supply := e.supply + f.supply
      flex := e.flex + f.flex } : Effect).on s := by
  unfold on posAfter
  simp only [h1, h2, h3, h4, if_true, bumps_append, Int.add_assoc]

theorem sendRestriction_on {c : Cfg} {a b : Addr} {x : Int} {s s' : State} {u : Unit} (hx : x ≠ 0)
    (ha : a ≠ c.yieldAddr) (hm : a ≠ c.moduleAddr) (h : sendRestriction c a b x s = .ok u s') :
    unrecorded s' = ({
      prin := (a, -roundedUp x s.index) :: if b = c.moduleAddr then [] else [(b, roundedUp x s.index)]
      total := if b = c.moduleAddr then -roundedUp x s.index else 0 } : Effect).on (unrecorded s) := by
  unfold sendRestriction at h
  rw [if_neg hx, if_neg ha] at h
  by_cases hb : b = c.yieldAddr
  · rw [if_pos hb, if_neg hm] at h; cases h
  rw [if_neg hb] at h
  simp only [bind_apply, get_apply] at h
  by_cases hi : s.index = 0
  · unfold principalUp at h
    simp only [hi, if_true] at h
    cases h
  rw [principalUp_eq hi] at h
  obtain ⟨_, s1, h1, h2⟩ := bind_ok.1 (show (restrictSender c a (roundedUp x s.index) >>= fun _ => _) s = _ from h)
  rw [restrictRecipient_on hm h2, restrictSender_on hm h1, Effect.on_on rfl rfl rfl rfl]
  simp

theorem sendCoins_on {c : Cfg} {a b : Addr} {x : Int} {s s' : State} {u : Unit}
    (ha : a ≠ c.yieldAddr) (hm : a ≠ c.moduleAddr) (h : sendCoins c a b x s = .ok u s') :
    unrecorded s' = (Effect.send c s.index a b x).on (unrecorded s) := by
  unfold sendCoins at h
  unfold Effect.send
  by_cases hx : x = 0
  · rw [if_pos hx] at h ⊢
    obtain ⟨_, rfl⟩ := pure_ok.1 h
    rw [Effect.on_empty]
  rw [if_neg hx] at h ⊢
  obtain ⟨_, s1, h1, h⟩ := bind_ok.1 h
  obtain ⟨_, s2, h2, h3⟩ := bind_ok.1 h
  rw [subCoins_eq] at h1
  split at h1
  · cases h1
  cases h1
  rw [addCoins_eq] at h3
  cases h3
  have e := sendRestriction_on hx ha hm h2
  have e1 : unrecorded (credit s2 b x) = ({ bal := [(b, x)] } : Effect).on (unrecorded s2) := by
    simp only [Effect.on, Effect.posAfter, add_zero, if_true]; rfl
  have e2 : unrecorded (debit s a x) = ({ bal := [(a, -x)] } : Effect).on (unrecorded s) := by
    simp only [Effect.on, Effect.posAfter, add_zero, if_true]; rfl
  rw [e1, e, e2, Effect.on_on rfl rfl rfl rfl, Effect.on_on rfl rfl rfl rfl]
  simp
  rfl

/-- A payment out of the yield account. -/
def Effect.pay (c : Cfg) (b : Addr) (x : Int) : Effect :=
  if x = 0 then {} else { bal := [(c.yieldAddr, -x), (b, x)] }

theorem sendCoins_yield_on {c : Cfg} {b : Addr} {x : Int} {s s' : State} {u : Unit}
    (h : sendCoins c c.yieldAddr b x s = .ok u s') : unrecorded s' = (Effect.pay c b x).on (unrecorded s) := by
  unfold sendCoins at h
  unfold Effect.pay
  by_cases hx : x = 0
  · rw [if_pos hx] at h ⊢
    obtain ⟨_, rfl⟩ := pure_ok.1 h
    rw [Effect.on_empty]
  rw [if_neg hx] at h ⊢
  obtain ⟨_, s1, h1, h⟩ := bind_ok.1 h
  obtain ⟨_, s2, h2, h3⟩ := bind_ok.1 h
  rw [subCoins_eq] at h1
  split at h1
  · cases h1
  cases h1
  rw [addCoins_eq] at h3
  cases h3
  unfold sendRestriction at h2
  rw [if_neg hx, if_pos rfl] at h2
  obtain ⟨_, rfl⟩ := pure_ok.1 h2
  simp only [Effect.on, Effect.posAfter, add_zero, if_true]; rfl

/-! ### Messages -/

/-- The outputs of a multi-send. -/
def Effect.outs (c : Cfg) (index : Int) (a : Addr) : List (Addr × Int) → Effect
  | [] => {}
  | (b, x) :: t => {
    bal := (b, x) :: (outs c index a t).bal
    prin := ((a, -roundedUp x index) :: if b = c.moduleAddr then [] else [(b, roundedUp x index)]) ++
      (outs c index a t).prin
    total := (if b = c.moduleAddr then -roundedUp x index else 0) + (outs c index a t).total }

theorem Effect.outs_plain (c : Cfg) (i : Int) (a : Addr) (l : List (Addr × Int)) :
    (outs c i a l).nonce = 0 ∧ (outs c i a l).pos = none ∧ (outs c i a l).supply = 0 ∧ (outs c i a l).flex = 0 := by
  cases l <;> exact ⟨rfl, rfl, rfl, rfl⟩

theorem multiOutputs_on {c : Cfg} {a : Addr} (ha : a ≠ c.yieldAddr) (hm : a ≠ c.moduleAddr) {l : List (Addr × Int)}
    (hl : ∀ o ∈ l, o.2 ≠ 0) {s s' : State} {u : Unit} (h : multiSendOutputs c a l s = .ok u s') :
    unrecorded s' = (Effect.outs c s.index a l).on (unrecorded s) := by
  induction l generalizing s with
  | nil =>
    obtain ⟨_, rfl⟩ := pure_ok.1 h
    exact (Effect.on_empty _).symm
  | cons o t ih =>
    obtain ⟨b, x⟩ := o
    unfold multiSendOutputs at h
    obtain ⟨_, s1, h1, h⟩ := bind_ok.1 h
    obtain ⟨_, s2, h2, h3⟩ := bind_ok.1 h
    rw [addCoins_eq] at h2
    cases h2
    have e := sendRestriction_on (hl _ List.mem_cons_self) ha hm h1
    have ei : s1.index = s.index := (congrArg State.index e :)
    have e1 : unrecorded (credit s1 b x) = ({ bal := [(b, x)] } : Effect).on (unrecorded s1) := by
      simp only [Effect.on, Effect.posAfter, add_zero, if_true]; rfl
    obtain ⟨p1, p2, p3, p4⟩ := Effect.outs_plain c s.index a t
    have e2 := ih (fun o ho => hl o (List.mem_cons_of_mem _ ho)) h3
    rw [show (credit s1 b x).index = s.index from ei] at e2
    have e3 (r : State) := Effect.on_on (e := ({ bal := [(b, x)] } : Effect)) (f := Effect.outs c s.index a t)
      (s := r) rfl p1 rfl p2
    rw [e2, e1, e, e3, Effect.on_on rfl rfl rfl rfl, p3, p4]
    simp [Effect.outs]

/-- What a message of a user adds where. -/
def effectOf (c : Cfg) (env : Env) (s : State) : Msg → Effect
  | .bankSend a b x => .send c s.index a b x
  | .bankMultiSend a outs =>
    { Effect.outs c s.index a outs with
      bal := (a, -(outs.map Prod.snd).sum) :: (Effect.outs c s.index a outs).bal }
  | .claimYield g =>
    match c.decode g with
    | some a => .pay c a (claimable s a)
    | none => {}
  | .lock g v (some x) =>
    match c.decode g with
    | some a =>
      { Effect.send c s.index a (posAddr c g v env.time) x with
        pos := some ((a, v, env.time), ⟨roundedDown x s.index, s.index, x, env.time⟩)
        flex := if v = FLEXIBLE then roundedDown x s.index else 0 }
    | none => {}
  | .transfer g (some x) .. =>
    match c.decode g with
    | some a =>
      { Effect.send c s.index a c.moduleAddr x with
        bal := (Effect.send c s.index a c.moduleAddr x).bal ++ [(c.moduleAddr, -x)]
        supply := -x
        nonce := 1 }
    | none => {}
  | _ => {}

theorem Effect.send_plain (c : Cfg) (i : Int) (a b : Addr) (x : Int) :
    (send c i a b x).nonce = 0 ∧ (send c i a b x).pos = none ∧ (send c i a b x).supply = 0 ∧
      (send c i a b x).flex = 0 := by
  unfold send; split <;> exact ⟨rfl, rfl, rfl, rfl⟩

theorem lock_sent {c : Cfg} {env : Env} {signer : String} {v : Int} {amt? : Option Int}
    {s s' : State} {u : Unit} (h : lock c env signer v amt? s = .ok u s') :
    ∃ amt a m, amt? = some amt ∧ c.decode signer = some a ∧
      sendCoins c a (posAddr c signer v env.time) amt s = .ok () m ∧ s' = lockedState m signer a v amt env.time := by
  unfold lock at h
  simp only [bind_ok, get_ok] at h
  obtain ⟨_, _, ⟨rfl, rfl⟩, h⟩ := h
  rw [ite_ok] at h
  rcases h with ⟨_, h⟩ | ⟨h0, h⟩
  · cases h
  rw [ite_ok] at h
  rcases h with ⟨_, h⟩ | ⟨h1, h⟩
  · cases h
  cases hd : c.decode signer with
  | none => simp only [hd] at h; cases h
  | some a =>
  simp only [hd] at h
  cases amt? with
  | none => cases h
  | some amt =>
  simp only at h
  rw [ite_ok] at h
  rcases h with ⟨_, h⟩ | ⟨h2, h⟩
  · cases h
  rw [ite_ok] at h
  rcases h with ⟨_, h⟩ | ⟨h3, h⟩
  · cases h
  rw [ite_ok] at h
  rcases h with ⟨_, h⟩ | ⟨h4, h⟩
  · cases h
  rw [ite_ok] at h
  rcases h with ⟨_, h⟩ | ⟨h5, h⟩
  · cases h
  simp only [bind_ok] at h
  obtain ⟨_, s1, h6, _, m, h7, h8⟩ := h
  obtain ⟨hn, rfl⟩ := newCoin_ok h6
  rw [lockBook_eq] at h8
  split at h8
  · cases h8
  cases h8
  exact ⟨amt, a, m, rfl, rfl, h7, rfl⟩

theorem transfer_sent {c : Cfg} {env : Env} {signer : String} {amt? : Option Int} {chain : Nat}
    {token recipient : Bytes} {s s' : State} {u : Unit}
    (h : transfer c env signer amt? chain token recipient s = .ok u s') :
    ∃ amt a m, amt? = some amt ∧ c.decode signer = some a ∧
      sendCoins c a c.moduleAddr amt { s with nonce := (s.nonce + 1) % 2 ^ 32 } = .ok () m ∧
      unrecorded s' = unrecorded { debit m c.moduleAddr amt with supply := m.supply - amt } := by
  unfold transfer at h
  simp only [bind_ok, get_ok] at h
  obtain ⟨_, _, ⟨rfl, rfl⟩, h⟩ := h
  rw [ite_ok] at h
  rcases h with ⟨_, h⟩ | ⟨hp, h⟩
  · cases h
  cases hpeer : s.peers.get? chain with
  | none => simp only [hpeer] at h; cases h
  | some peer =>
  simp only [hpeer] at h
  rw [ite_ok] at h
  rcases h with ⟨_, h⟩ | ⟨hpath, h⟩
  · cases h
  rw [ite_ok] at h
  rcases h with ⟨_, h⟩ | ⟨hlen, h⟩
  · cases h
  cases amt? with
  | none => cases h
  | some amt =>
  simp only at h
  rw [ite_ok] at h
  rcases h with ⟨_, h⟩ | ⟨hrange, h⟩
  · cases h
  unfold transferSend at h
  simp only [bind_ok, get_ok] at h
  obtain ⟨_, _, ⟨rfl, rfl⟩, h⟩ := h
  cases hdec : c.decode signer with
  | none => simp only [hdec] at h; cases h
  | some sender =>
  simp only [hdec] at h
  simp only [bind_ok] at h
  obtain ⟨raw, s1, hraw, h⟩ := h
  obtain ⟨hraw, rfl⟩ := parse_ok hraw
  obtain ⟨n, s2, hn, h⟩ := h
  unfold incrementNonce at hn
  simp only [bind_ok, get_ok, modify_ok, pure_ok] at hn
  obtain ⟨_, _, ⟨rfl, rfl⟩, _, _, rfl, rfl, rfl⟩ := hn
  obtain ⟨_, m, hb, h⟩ := h
  obtain ⟨_, m2, hpost, h⟩ := h
  unfold postMessage at hpost
  rw [ite_ok] at hpost
  rcases hpost with ⟨hok, hpost⟩ | ⟨_, hpost⟩
  swap
  · cases hpost
  have hpost := modify_ok.1 hpost
  obtain ⟨_, m3, he1, h⟩ := h
  have he1 := emit_ok he1
  rw [ite_ok] at h
  rcases h with ⟨_, h⟩ | ⟨hlt, h⟩
  · cases h
  simp only [bind_ok] at h
  obtain ⟨_, m4, he2, he3⟩ := h
  have he2 := emit_ok he2
  have he3 := emit_ok he3
  unfold burn at hb
  simp only [bind_ok] at hb
  obtain ⟨_, b1, hb1, _, b2, hb2, hb3⟩ := hb
  obtain ⟨_, rfl⟩ := newCoin_ok hb1
  unfold burnCoins at hb3
  simp only [bind_ok] at hb3
  obtain ⟨_, b3, hb3, hb4⟩ := hb3
  rw [subCoins_eq] at hb3
  split at hb3
  · cases hb3
  cases hb3
  have hb4 := modify_ok.1 hb4
  refine ⟨amt, sender, b2, rfl, rfl, hb2, ?_⟩
  subst hpost he1 he2 he3 hb4
  rfl

/-- A message that only adds. -/
def adds : Msg → Bool
  | .bankSend .. | .bankMultiSend .. | .claimYield _ | .lock .. | .transfer .. => true
  | _ => false

theorem exec_on {c : Cfg} {env : Env} {m : Msg} {s s' : State} (hm : m.SignedByUser c) (ha : adds m = true)
    (h : exec c env m s = .ok () s') : unrecorded s' = (effectOf c env s m).on (unrecorded s) := by
  cases m with
  | bankSend a b x =>
    have hu : c.IsUser a := hm
    have h : bankSend c a b x s = .ok () s' := h
    unfold bankSend at h
    rw [ite_ok] at h
    rcases h with ⟨_, h⟩ | ⟨h0, h⟩
    · cases h
    rw [ite_ok] at h
    rcases h with ⟨_, h⟩ | ⟨h1, h⟩
    · cases h
    exact sendCoins_on hu.ne_yield hu.ne_module h
  | bankMultiSend a outs =>
    have hu : c.IsUser a := hm
    have h : bankMultiSend c a outs s = .ok () s' := h
    unfold bankMultiSend at h
    rw [ite_ok] at h
    rcases h with ⟨_, h⟩ | ⟨_, h⟩
    · cases h
    rw [ite_ok] at h
    rcases h with ⟨_, h⟩ | ⟨h0, h⟩
    · cases h
    rw [ite_ok] at h
    rcases h with ⟨_, h⟩ | ⟨h1, h⟩
    · cases h
    unfold multiSend at h
    obtain ⟨_, s1, h2, h⟩ := bind_ok.1 h
    rw [subCoins_eq] at h2
    split at h2
    · cases h2
    cases h2
    have hpos : ∀ o ∈ outs, o.2 ≠ 0 := by
      intro o ho hz
      exact h0 (List.any_eq_true.2 ⟨o, ho, by simp [hz]⟩)
    have e := multiOutputs_on hu.ne_yield hu.ne_module hpos h
    have e2 : unrecorded (debit s a (outs.map Prod.snd).sum) =
        ({ bal := [(a, -(outs.map Prod.snd).sum)] } : Effect).on (unrecorded s) := by
      simp only [Effect.on, Effect.posAfter, add_zero, if_true]; rfl
    have ei : (debit s a (outs.map Prod.snd).sum).index = s.index := rfl
    obtain ⟨p1, p2, p3, p4⟩ := Effect.outs_plain c s.index a outs
    rw [e, e2, ei, Effect.on_on rfl p1 rfl p2]
    unfold effectOf
    simp only [Effect.on, Effect.posAfter, p1, p2, p3, p4, List.nil_append, List.cons_append, zero_add]
  | claimYield g =>
    have h : claimYield c g s = .ok () s' := h
    unfold claimYield at h
    simp only [bind_ok, get_ok] at h
    obtain ⟨_, _, ⟨rfl, rfl⟩, h⟩ := h
    rw [ite_ok] at h
    rcases h with ⟨_, h⟩ | ⟨hp, h⟩
    · cases h
    simp only [bind_ok] at h
    obtain ⟨⟨y, a⟩, s1, h1, _, s2, h2, _, s3, h3, h4⟩ := h
    unfold getYield at h1
    unfold effectOf
    cases ha : c.decode g with
    | none => rw [ha] at h1; cases h1
    | some a' =>
    rw [ha] at h1
    simp only [bind_ok, get_ok, pure_ok] at h1
    obtain ⟨_, _, ⟨rfl, rfl⟩, h1, rfl⟩ := h1
    cases h1
    obtain ⟨h0, rfl⟩ := newCoin_ok h2
    have h4 := emit_ok h4
    unfold sendModuleToAccount at h3
    rw [ite_ok] at h3
    rcases h3 with ⟨_, h3⟩ | ⟨_, h3⟩
    · cases h3
    have e := sendCoins_yield_on h3
    rw [h4]
    simp only [ha]
    exact e
  | lock g v x =>
    obtain ⟨amt, a, m, rfl, hd, hsd, rfl⟩ := lock_sent (show lock c env g v x s = .ok () s' from h)
    have hu := hm a hd
    have e := sendCoins_on hu.ne_yield hu.ne_module hsd
    have ei : m.index = s.index := (congrArg State.index e :)
    have e1 : unrecorded (lockedState m g a v amt env.time) = ({
        pos := some ((a, v, env.time), ⟨roundedDown amt m.index, m.index, amt, env.time⟩)
        flex := if v = FLEXIBLE then roundedDown amt m.index else 0 } : Effect).on (unrecorded m) := by
      simp only [Effect.on, Effect.posAfter, add_zero, if_true, bumps, List.foldl_nil]
      unfold lockedState unrecorded
      simp only
      congr 1
      split <;> simp
    obtain ⟨p1, p2, p3, p4⟩ := Effect.send_plain c s.index a (posAddr c g v env.time) amt
    rw [e1, e, ei]
    unfold effectOf
    simp only [hd, Effect.on, Effect.posAfter, p1, p2, p3, p4, bumps, List.foldl_nil, if_true, add_zero]
  | transfer g x ch t r =>
    obtain ⟨amt, a, m, rfl, hd, hsd, e0⟩ := transfer_sent (show transfer c env g x ch t r s = .ok () s' from h)
    have hu := hm a hd
    have e := sendCoins_on hu.ne_yield hu.ne_module hsd
    have e1 : unrecorded { debit m c.moduleAddr amt with supply := m.supply - amt } =
        ({ bal := [(c.moduleAddr, -amt)], supply := -amt } : Effect).on (unrecorded m) := by
      simp only [Effect.on, Effect.posAfter, add_zero, if_true]; rfl
    have e2 : unrecorded { s with nonce := (s.nonce + 1) % 2 ^ 32 } = ({ nonce := 1 } : Effect).on (unrecorded s) := by
      simp only [Effect.on, Effect.posAfter, add_zero, bumps, List.foldl_nil]; rfl
    obtain ⟨p1, p2, p3, p4⟩ := Effect.send_plain c s.index a c.moduleAddr amt
    rw [e0, e1, e, e2]
    unfold effectOf
    simp only [hd, Effect.on, Effect.posAfter, p1, p2, p3, p4, bumps_append, if_true, add_zero]
    rfl
  | _ => cases ha

end Dollar
