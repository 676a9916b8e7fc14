import Verif.Model.Coins
import Verif.Lemmas.Bank
import Verif.Spec.Reach
import Verif.Spec.DemoExt

/-
C110: other coins do not matter.
-/
set_option maxRecDepth 100000
namespace Dollar
open MM

/-- A valid set of coins: every denomination once, every amount positive (`Coins.Validate`). -/
structure ValidCoins (coins : Coins) : Prop where
  once : (coins.map Prod.fst).Nodup
  positive : ∀ e ∈ coins, 0 < e.2

theorem ValidCoins.tail {e : String × Int} {t : Coins} (h : ValidCoins (e :: t)) : ValidCoins t :=
  ⟨(List.nodup_cons.1 h.once).2, fun x hx => h.positive x (.tail _ hx)⟩

theorem amountOf_cons_same (d : String) (x : Int) (t : Coins) : amountOf ((d, x) :: t) d = x := by
  simp [amountOf, KV.get?]
theorem amountOf_cons_ne {d d' : String} (x : Int) (t : Coins) (h : d ≠ d') :
    amountOf ((d, x) :: t) d' = amountOf t d' := by
  simp [amountOf, KV.get?, h]
theorem amountOf_notin {d : String} {t : Coins} (h : d ∉ t.map Prod.fst) : amountOf t d = 0 := by
  induction t with
  | nil => rfl
  | cons e t ih =>
    obtain ⟨d', x⟩ := e
    simp only [List.map_cons, List.mem_cons, not_or] at h
    rw [amountOf_cons_ne x t (Ne.symm h.1), ih h.2]
theorem amountOf_mem {e : String × Int} {t : Coins} (h : ValidCoins t) (he : e ∈ t) : amountOf t e.1 = e.2 := by
  induction t with
  | nil => cases he
  | cons f t ih =>
    obtain ⟨d', x⟩ := f
    rcases List.mem_cons.1 he with rfl | he'
    · exact amountOf_cons_same _ _ _
    · have hn := (List.nodup_cons.1 h.once).1
      have hne : d' ≠ e.1 := by
        rintro rfl
        exact hn (List.mem_map.2 ⟨e, he', rfl⟩)
      rw [amountOf_cons_ne x t hne, ih h.tail he']

theorem balance_setBalance (c : Cfg) (w : Wallets) (a x : Addr) (d d' : String) (v : Int) :
    (w.setBalance c a d v).balance c x d' = if x = a ∧ d' = d then v else w.balance c x d' := by
  unfold Wallets.setBalance Wallets.balance
  by_cases h1 : d = c.denom
  · subst h1
    rw [if_pos rfl]
    by_cases h2 : d' = c.denom
    · subst h2
      simp only [if_true, and_true]
      by_cases h3 : x = a
      · subst h3; simp [State.balance]
      · simp [State.balance, KV.get?_set_ne _ _ h3, h3]
    · simp [h2]
  · rw [if_neg h1]
    by_cases h2 : d' = c.denom
    · subst h2
      simp [Ne.symm h1]
    · simp only [h2, if_false]
      by_cases h3 : x = a ∧ d' = d
      · obtain ⟨rfl, rfl⟩ := h3; simp
      · rw [if_neg h3, KV.get?_set_ne _ _ (fun e => h3 (by simpa using e))]

/-- USDN part of `setBalance`. -/
theorem setBalance_s (c : Cfg) (w : Wallets) (a : Addr) (d : String) (v : Int) :
    (w.setBalance c a d v).s = if d = c.denom then { w.s with bal := w.s.bal.set a v } else w.s := by
  unfold Wallets.setBalance
  split <;> rfl

/-- What a debit of a set of coins does. -/
structure SubDid (c : Cfg) (locked : Addr → String → Int) (a : Addr) (coins : Coins) (w w' : Wallets) : Prop where
  usdn : w'.s = if amountOf coins c.denom = 0 then w.s else
    { w.s with bal := w.s.bal.set a (w.s.balance a - amountOf coins c.denom) }
  enough : ∀ e ∈ coins, e.2 ≤ w.balance c a e.1 - locked a e.1
  rest : ∀ x d, d ≠ c.denom → w'.balance c x d = w.balance c x d - if x = a then amountOf coins d else 0

theorem sub_ok {c : Cfg} {locked : Addr → String → Int} {a : Addr} {coins : Coins} (hv : ValidCoins coins)
    {w w' : Wallets} (h : subCoinsIn c locked a coins w = .ok () w') : SubDid c locked a coins w w' := by
  induction coins generalizing w with
  | nil =>
    cases h
    exact ⟨rfl, fun e he => (nomatch he), fun x d _ => by simp [amountOf, KV.get?]⟩
  | cons e t ih =>
    obtain ⟨d, x⟩ := e
    simp only [subCoinsIn, bind_apply, get_apply] at h
    split at h
    · cases h
    rename_i hle
    have hx : 0 < x := hv.positive _ (.head _)
    have hd : d ∉ t.map Prod.fst := (List.nodup_cons.1 hv.once).1
    have i := ih hv.tail h
    refine ⟨?_, fun f hf => ?_, fun y d' hd' => ?_⟩
    · rw [i.usdn]
      show (if _ then (w.setBalance c a d (w.balance c a d - x)).s else { (w.setBalance c a d (w.balance c a d - x)).s with
        bal := (w.setBalance c a d (w.balance c a d - x)).s.bal.set a _ }) = _
      rw [setBalance_s]
      by_cases h1 : d = c.denom
      · subst h1
        rw [amountOf_notin hd, if_pos rfl, if_pos rfl, amountOf_cons_same, if_neg hx.ne']
        unfold Wallets.balance
        rw [if_pos rfl]
      · rw [amountOf_cons_ne x t h1, if_neg h1]
    · rcases List.mem_cons.1 hf with rfl | hf'
      · show x ≤ w.balance c a d - locked a d
        omega
      · have := i.enough f hf'
        have hn : ¬ (a = a ∧ f.1 = d) := by
          rintro ⟨-, rfl⟩
          exact hd (List.mem_map_of_mem hf')
        rw [balance_setBalance, if_neg hn] at this
        exact this
    · rw [i.rest y d' hd', balance_setBalance]
      by_cases h1 : y = a
      · subst h1
        by_cases h2 : d' = d
        · subst h2
          rw [if_pos ⟨rfl, rfl⟩, if_pos rfl, if_pos rfl, amountOf_notin hd, amountOf_cons_same]
          omega
        · rw [if_neg (fun h => h2 h.2), amountOf_cons_ne x t (Ne.symm h2)]
      · rw [if_neg (fun h => h1 h.1), if_neg h1, if_neg h1]

theorem sub_goes {c : Cfg} {locked : Addr → String → Int} {a : Addr} {coins : Coins} (hv : ValidCoins coins)
    {w : Wallets} (h : ∀ e ∈ coins, e.2 ≤ w.balance c a e.1 - locked a e.1) :
    ∃ w', subCoinsIn c locked a coins w = .ok () w' := by
  induction coins generalizing w with
  | nil => exact ⟨w, rfl⟩
  | cons e t ih =>
    obtain ⟨d, x⟩ := e
    have hd : d ∉ t.map Prod.fst := (List.nodup_cons.1 hv.once).1
    have h0 := h _ (.head _)
    have hn : ¬ (w.balance c a d - locked a d < x) := by
      have h0 : x ≤ w.balance c a d - locked a d := h0
      omega
    obtain ⟨w', hw⟩ := ih hv.tail (w := w.setBalance c a d (w.balance c a d - x)) fun f hf => by
      have hn : ¬ (a = a ∧ f.1 = d) := by
        rintro ⟨-, rfl⟩
        exact hd (List.mem_map_of_mem hf)
      rw [balance_setBalance, if_neg hn]
      exact h f (.tail _ hf)
    refine ⟨w', ?_⟩
    simp only [subCoinsIn, bind_apply, get_apply]
    rw [if_neg hn]
    exact hw

/-- What a credit of a set of coins does. -/
structure AddDid (c : Cfg) (a : Addr) (coins : Coins) (w w' : Wallets) : Prop where
  usdn : w'.s = if amountOf coins c.denom = 0 then w.s else
    { w.s with bal := w.s.bal.set a (w.s.balance a + amountOf coins c.denom) }
  rest : ∀ x d, d ≠ c.denom → w'.balance c x d = w.balance c x d + if x = a then amountOf coins d else 0

theorem add_goes {c : Cfg} {a : Addr} {coins : Coins} (hv : ValidCoins coins) (w : Wallets) :
    ∃ w', addCoinsIn c a coins w = .ok () w' ∧ AddDid c a coins w w' := by
  induction coins generalizing w with
  | nil => exact ⟨w, rfl, rfl, fun x d _ => by simp [amountOf, KV.get?]⟩
  | cons e t ih =>
    obtain ⟨d, x⟩ := e
    have hx : 0 < x := hv.positive _ (.head _)
    have hd : d ∉ t.map Prod.fst := (List.nodup_cons.1 hv.once).1
    obtain ⟨w', hw, i⟩ := ih hv.tail (w.setBalance c a d (w.balance c a d + x))
    refine ⟨w', hw, ?_, fun y d' hd' => ?_⟩
    · rw [i.usdn, setBalance_s]
      by_cases h1 : d = c.denom
      · subst h1
        rw [amountOf_notin hd, if_pos rfl, if_pos rfl, amountOf_cons_same, if_neg hx.ne']
        unfold Wallets.balance
        rw [if_pos rfl]
      · rw [amountOf_cons_ne x t h1, if_neg h1]
    · rw [i.rest y d' hd', balance_setBalance]
      by_cases h1 : y = a
      · subst h1
        by_cases h2 : d' = d
        · subst h2
          rw [if_pos ⟨rfl, rfl⟩, if_pos rfl, if_pos rfl, amountOf_notin hd, amountOf_cons_same]
          omega
        · rw [if_neg (fun h => h2 h.2), amountOf_cons_ne x t (Ne.symm h2)]
      · rw [if_neg (fun h => h1 h.1), if_neg h1, if_neg h1]

theorem amountOf_pos {coins : Coins} (hv : ValidCoins coins) {d : String} (h : amountOf coins d ≠ 0) :
    ∃ e ∈ coins, e.1 = d ∧ amountOf coins d = e.2 ∧ 0 < e.2 := by
  by_cases hm : d ∈ coins.map Prod.fst
  · obtain ⟨e, he, rfl⟩ := List.mem_map.1 hm
    exact ⟨e, he, rfl, amountOf_mem hv he, hv.positive e he⟩
  · exact absurd (amountOf_notin hm) h

theorem onState_ok {α : Type} {x : M α} {w w' : Wallets} {r : α} (h : onState x w = .ok r w') :
    x w.s = .ok r w'.s ∧ w'.other = w.other := by
  unfold onState at h
  cases hx : x w.s with
  | ok a s => rw [hx] at h; cases h; exact ⟨rfl, rfl⟩
  | err e s => rw [hx] at h; cases h
  | panic => rw [hx] at h; cases h

theorem onState_goes {α : Type} {x : M α} {w : Wallets} {r : α} {s : State} (h : x w.s = .ok r s) :
    onState x w = .ok r { w with s := s } := by
  unfold onState
  rw [h]

/-- The three stages of a transfer of USDN. -/
theorem sendCoins_stages {c : Cfg} {a b : Addr} {amt : Int} (h0 : amt ≠ 0) {s s' : State} (he : amt ≤ s.balance a) :
    sendCoins c a b amt s = .ok () s' ↔
      ∃ s2, sendRestriction c a b amt { s with bal := s.bal.set a (s.balance a - amt) } = .ok () s2 ∧
        s' = { s2 with bal := s2.bal.set b (s2.balance b + amt) } := by
  unfold sendCoins subCoins addCoins setBalance
  simp only [h0, if_false, bind_apply, get_apply]
  rw [if_neg (by omega)]
  simp only [modify_apply]
  cases hx : sendRestriction c a b amt { s with bal := s.bal.set a (s.balance a - amt) } with
  | ok u s2 =>
    simp only [Res.ok.injEq, true_and]
    constructor
    · intro e; exact ⟨s2, rfl, e.symm⟩
    · rintro ⟨s3, e, rfl⟩
      obtain rfl : s2 = s3 := by simpa using e
      rfl
  | err e s2 => simp
  | panic => simp

/-- C110: an accepted transfer of a set of coins does to the module exactly what a transfer of its USDN alone
does, and moves the other coins one for one. -/
theorem C110_alone {c : Cfg} {locked : Addr → String → Int} (hl : ∀ x d, 0 ≤ locked x d) {a b : Addr}
    {coins : Coins} (hv : ValidCoins coins) {w w' : Wallets} (h : sendCoinsIn c locked a b coins w = .ok () w') :
    sendCoins c a b (amountOf coins c.denom) w.s = .ok () w'.s ∧
    (∀ e ∈ coins, e.2 + locked a e.1 ≤ w.balance c a e.1) ∧
    ∀ x d, d ≠ c.denom → w'.balance c x d = w.balance c x d -
      (if x = a then amountOf coins d else 0) + (if x = b then amountOf coins d else 0) := by
  unfold sendCoinsIn at h
  obtain ⟨_, w1, h1, h⟩ := bind_ok.1 h
  obtain ⟨_, w2, h2, h3⟩ := bind_ok.1 h
  have hs := sub_ok hv h1
  obtain ⟨hr, ho⟩ := onState_ok h2
  obtain ⟨w3, e3, ha⟩ := add_goes (a := b) hv w2
  rw [h3] at e3
  obtain rfl : w' = w3 := by simpa using e3
  have hb2 : ∀ x d, d ≠ c.denom → w2.balance c x d = w1.balance c x d := fun x d hd => by
    unfold Wallets.balance
    rw [if_neg hd, if_neg hd, ho]
  refine ⟨?_, fun e he => by have := hs.enough e he; omega, fun x d hd => by rw [ha.rest x d hd, hb2 x d hd, hs.rest x d hd]⟩
  by_cases h0 : amountOf coins c.denom = 0
  · have hu := ha.usdn
    have hw := hs.usdn
    rw [if_pos h0] at hu hw
    rw [h0] at hr
    have : w2.s = w1.s := by
      have : sendRestriction c a b 0 w1.s = .ok () w1.s := rfl
      rw [this] at hr
      simpa using hr.symm
    rw [h0, hu, this, hw]
    rfl
  · obtain ⟨e, he, hd, hamt, hpos⟩ := amountOf_pos hv h0
    have hen := hs.enough e he
    have hl' := hl a e.1
    rw [hd] at hen hl'
    have hbal : w.balance c a c.denom = w.s.balance a := by unfold Wallets.balance; rw [if_pos rfl]
    rw [hbal] at hen
    refine (sendCoins_stages h0 (by omega)).2 ⟨w2.s, ?_, ?_⟩
    · have hw := hs.usdn
      rw [if_neg h0] at hw
      rw [← hw]
      exact hr
    · have hu := ha.usdn
      rw [if_neg h0] at hu
      exact hu

/-- C110: a transfer of a set of coins goes through as soon as the transfer of its USDN alone does and the sender
can spend every coin of the set. -/
theorem C110_goes {c : Cfg} {locked : Addr → String → Int} (hl : ∀ x d, 0 ≤ locked x d) {a b : Addr}
    {coins : Coins} (hv : ValidCoins coins) {w : Wallets} {s' : State}
    (hs : sendCoins c a b (amountOf coins c.denom) w.s = .ok () s')
    (he : ∀ e ∈ coins, e.2 + locked a e.1 ≤ w.balance c a e.1) :
    ∃ w', sendCoinsIn c locked a b coins w = .ok () w' ∧ w'.s = s' := by
  obtain ⟨w1, h1⟩ := sub_goes (locked := locked) hv (fun e h => by have := he e h; omega : ∀ e ∈ coins, e.2 ≤ w.balance c a e.1 - locked a e.1)
  have hu := (sub_ok hv h1).usdn
  have key : ∃ s2, sendRestriction c a b (amountOf coins c.denom) w1.s = .ok () s2 := by
    by_cases h0 : amountOf coins c.denom = 0
    · rw [h0]; exact ⟨w1.s, rfl⟩
    · obtain ⟨e, hm, hd, hamt, hpos⟩ := amountOf_pos hv h0
      have hen := he e hm
      have hl' := hl a e.1
      rw [hd] at hen hl'
      have hbal : w.balance c a c.denom = w.s.balance a := by unfold Wallets.balance; rw [if_pos rfl]
      rw [hbal] at hen
      obtain ⟨s2, h2, _⟩ := (sendCoins_stages h0 (by omega)).1 hs
      rw [if_neg h0] at hu
      rw [hu]
      exact ⟨s2, h2⟩
  obtain ⟨s2, h2⟩ := key
  obtain ⟨w3, h3, _⟩ := add_goes (c := c) (a := b) hv { w1 with s := s2 }
  have hx : sendCoinsIn c locked a b coins w = .ok () w3 := by
    unfold sendCoinsIn
    simp only [bind_apply, h1, onState_goes h2]
    exact h3
  refine ⟨w3, hx, ?_⟩
  have := (C110_alone hl hv hx).1
  rw [hs] at this
  simpa using this.symm

/-- C110: a transfer without USDN changes nothing the module keeps or shows. -/
theorem C110_other {c : Cfg} {locked : Addr → String → Int} (hl : ∀ x d, 0 ≤ locked x d) {a b : Addr}
    {coins : Coins} (hv : ValidCoins coins) (hd : c.denom ∉ coins.map Prod.fst) {w w' : Wallets}
    (h : sendCoinsIn c locked a b coins w = .ok () w') : w'.s = w.s := by
  have := (C110_alone hl hv h).1
  rw [amountOf_notin hd, sendCoins_zero] at this
  simpa using this.symm

/-! ### Non-vacuity: Alice sends Bob USDN together with two other coins, some of one locked by vesting -/

/-- Three coins of which one is USDN. -/
def Demo.coins : Coins := [("aaa", 5), (Demo.cfg.denom, 1000000), ("zzz", 7)]
/-- Two of Alice's "zzz" are locked. -/
def Demo.locked (a : Addr) (d : String) : Int := if a = Demo.alice ∧ d = "zzz" then 2 else 0
/-- Alice holds other coins. -/
def Demo.wallets : Wallets := ⟨run Demo.cfg Demo.hist1 Demo.start, [((Demo.alice, "aaa"), 5), ((Demo.alice, "zzz"), 9)]⟩

theorem Demo.coins_valid : ValidCoins Demo.coins := ⟨by decide, by decide⟩

example : ∃ w', sendCoinsIn Demo.cfg Demo.locked Demo.alice Demo.bob Demo.coins Demo.wallets = .ok () w' := by
  have hx : (match sendCoinsIn Demo.cfg Demo.locked Demo.alice Demo.bob Demo.coins Demo.wallets with
    | .ok _ _ => true | _ => false) = true := by decide +kernel
  cases h : sendCoinsIn Demo.cfg Demo.locked Demo.alice Demo.bob Demo.coins Demo.wallets with
  | ok _ w => exact ⟨w, rfl⟩
  | err _ _ => rw [h] at hx; cases hx
  | panic => rw [h] at hx; cases hx

end Dollar
