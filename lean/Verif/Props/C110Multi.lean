import Verif.Props.C110

/-
C110 for multi-sends: other coins do not matter there either.
-/
set_option maxRecDepth 100000
namespace Dollar
open MM

/-- What x/bank asks of a multi-send (`ValidateInputOutputs`): valid sets of coins, and the outputs add up to the input. -/
structure ValidMulti (input : Coins) (outs : List (Addr × Coins)) : Prop where
  debit : ValidCoins input
  outputs : ∀ o ∈ outs, ValidCoins o.2
  balanced : ∀ d, amountOf input d = (outs.map fun o => amountOf o.2 d).sum

/-- The USDN in the outputs, without the outputs that have none. -/
def usdnOutputs (c : Cfg) (outs : List (Addr × Coins)) : List (Addr × Int) :=
  (outs.map fun o => (o.1, amountOf o.2 c.denom)).filter fun o => o.2 ≠ 0

theorem usdnOutputs_zero {c : Cfg} {b : Addr} {coins : Coins} {t : List (Addr × Coins)} (h : amountOf coins c.denom = 0) :
    usdnOutputs c ((b, coins) :: t) = usdnOutputs c t := by
  simp [usdnOutputs, h]
theorem usdnOutputs_some {c : Cfg} {b : Addr} {coins : Coins} {t : List (Addr × Coins)} (h : amountOf coins c.denom ≠ 0) :
    usdnOutputs c ((b, coins) :: t) = (b, amountOf coins c.denom) :: usdnOutputs c t := by
  simp [usdnOutputs, h]

theorem usdnOutputs_sum (c : Cfg) (outs : List (Addr × Coins)) :
    ((usdnOutputs c outs).map Prod.snd).sum = (outs.map fun o => amountOf o.2 c.denom).sum := by
  induction outs with
  | nil => rfl
  | cons o t ih =>
    obtain ⟨b, coins⟩ := o
    by_cases h : amountOf coins c.denom = 0
    · rw [usdnOutputs_zero h, ih]; simp [h]
    · rw [usdnOutputs_some h]; simp [ih]

/-- One output. -/
theorem output_step {c : Cfg} {a b : Addr} {coins : Coins} (hv : ValidCoins coins) {w w1 w2 : Wallets}
    (h1 : onState (sendRestriction c a b (amountOf coins c.denom)) w = .ok () w1) (h2 : addCoinsIn c b coins w1 = .ok () w2) :
    (if amountOf coins c.denom = 0 then w2.s = w.s else
      ∃ s1, sendRestriction c a b (amountOf coins c.denom) w.s = .ok () s1 ∧
        w2.s = { s1 with bal := s1.bal.set b (s1.balance b + amountOf coins c.denom) }) ∧
    ∀ x d, d ≠ c.denom → w2.balance c x d = w.balance c x d + if x = b then amountOf coins d else 0 := by
  obtain ⟨hr, ho⟩ := onState_ok h1
  obtain ⟨w3, e3, ha⟩ := add_goes (c := c) (a := b) hv w1
  rw [h2] at e3
  obtain rfl : w2 = w3 := by simpa using e3
  refine ⟨?_, fun x d hd => ?_⟩
  · have hu := ha.usdn
    by_cases h0 : amountOf coins c.denom = 0
    · rw [if_pos h0] at hu ⊢
      rw [h0] at hr
      have : sendRestriction c a b 0 w.s = .ok () w.s := rfl
      rw [this] at hr
      rw [hu]
      simpa using hr.symm
    · rw [if_neg h0] at hu ⊢
      exact ⟨w1.s, hr, hu⟩
  · rw [ha.rest x d hd]
    unfold Wallets.balance
    rw [if_neg hd, if_neg hd, ho]

theorem outputs_ok {c : Cfg} {a : Addr} {outs : List (Addr × Coins)} (hv : ∀ o ∈ outs, ValidCoins o.2) {w w' : Wallets}
    (h : multiOutputsIn c a outs w = .ok () w') :
    multiSendOutputs c a (usdnOutputs c outs) w.s = .ok () w'.s ∧
    ∀ x d, d ≠ c.denom → w'.balance c x d = w.balance c x d + (outs.map fun o => if x = o.1 then amountOf o.2 d else 0).sum := by
  induction outs generalizing w with
  | nil => cases h; exact ⟨rfl, fun x d _ => by simp⟩
  | cons o t ih =>
    obtain ⟨b, coins⟩ := o
    simp only [multiOutputsIn] at h
    obtain ⟨_, w1, h1, h⟩ := bind_ok.1 h
    obtain ⟨_, w2, h2, h3⟩ := bind_ok.1 h
    obtain ⟨hs, hb⟩ := output_step (hv _ (.head _)) h1 h2
    obtain ⟨i1, i2⟩ := ih (fun o ho => hv o (.tail _ ho)) h3
    refine ⟨?_, fun x d hd => ?_⟩
    · by_cases h0 : amountOf coins c.denom = 0
      · rw [if_pos h0] at hs
        rw [usdnOutputs_zero h0, ← hs]
        exact i1
      · rw [if_neg h0] at hs
        obtain ⟨s1, e1, e2⟩ := hs
        rw [usdnOutputs_some h0]
        simp only [multiSendOutputs, bind_apply, e1, addCoins, setBalance, get_apply, modify_apply]
        rw [e2] at i1
        exact i1
    · rw [i2 x d hd, hb x d hd]
      simp only [List.map_cons, List.sum_cons]
      omega

theorem outputs_go {c : Cfg} {a : Addr} {outs : List (Addr × Coins)} (hv : ∀ o ∈ outs, ValidCoins o.2) {w : Wallets} {s' : State}
    (h : multiSendOutputs c a (usdnOutputs c outs) w.s = .ok () s') : ∃ w', multiOutputsIn c a outs w = .ok () w' := by
  induction outs generalizing w with
  | nil => exact ⟨w, rfl⟩
  | cons o t ih =>
    obtain ⟨b, coins⟩ := o
    have key : ∃ s1, sendRestriction c a b (amountOf coins c.denom) w.s = .ok () s1 := by
      by_cases h0 : amountOf coins c.denom = 0
      · rw [h0]; exact ⟨w.s, rfl⟩
      · rw [usdnOutputs_some h0] at h
        simp only [multiSendOutputs] at h
        obtain ⟨_, s1, h1, _⟩ := bind_ok.1 h
        exact ⟨s1, h1⟩
    obtain ⟨s1, h1⟩ := key
    obtain ⟨w2, h2, _⟩ := add_goes (c := c) (a := b) (hv _ (.head _)) { w with s := s1 }
    have hs := (output_step (hv _ (.head _)) (onState_goes h1) h2).1
    have hn : multiSendOutputs c a (usdnOutputs c t) w2.s = .ok () s' := by
      by_cases h0 : amountOf coins c.denom = 0
      · rw [if_pos h0] at hs
        rw [usdnOutputs_zero h0] at h
        rw [hs]; exact h
      · rw [if_neg h0] at hs
        obtain ⟨s2, e1, e2⟩ := hs
        rw [usdnOutputs_some h0] at h
        simp only [multiSendOutputs, bind_apply, e1, addCoins, setBalance, get_apply, modify_apply] at h
        rw [e2]; exact h
    obtain ⟨w', hw⟩ := ih (fun o ho => hv o (.tail _ ho)) hn
    refine ⟨w', ?_⟩
    simp only [multiOutputsIn, bind_apply, onState_goes h1, h2]
    exact hw

/-- Without USDN in the input no output has any. -/
theorem usdnOutputs_none {c : Cfg} {input : Coins} {outs : List (Addr × Coins)} (hv : ValidMulti input outs)
    (h : amountOf input c.denom = 0) : usdnOutputs c outs = [] := by
  have hb := hv.balanced c.denom
  rw [h] at hb
  have ho := hv.outputs
  clear hv h
  induction outs with
  | nil => rfl
  | cons o t ih =>
    obtain ⟨b, coins⟩ := o
    have nonneg : ∀ x : Coins, ValidCoins x → 0 ≤ amountOf x c.denom := fun x hx => by
      by_cases h0 : amountOf x c.denom = 0
      · omega
      · obtain ⟨e, _, _, e1, e2⟩ := amountOf_pos hx h0; omega
    have hn : ∀ l : List (Addr × Coins), (∀ o ∈ l, ValidCoins o.2) → 0 ≤ (l.map fun o => amountOf o.2 c.denom).sum := by
      intro l hl
      induction l with
      | nil => simp
      | cons p l il =>
        have h1 := nonneg p.2 (hl p (.head _))
        have h2 := il fun o h => hl o (.tail _ h)
        simp only [List.map_cons, List.sum_cons]
        omega
    have h1 := nonneg coins (ho _ (.head _))
    have h2 := hn t fun o h => ho o (.tail _ h)
    simp only [List.map_cons, List.sum_cons] at hb
    rw [usdnOutputs_zero (by omega)]
    exact ih (by omega) fun o h => ho o (.tail _ h)

theorem multiSend_stages {c : Cfg} {a : Addr} {outs : List (Addr × Int)} {s : State} (he : (outs.map Prod.snd).sum ≤ s.balance a) :
    multiSend c a outs s =
      multiSendOutputs c a outs { s with bal := s.bal.set a (s.balance a - (outs.map Prod.snd).sum) } := by
  unfold multiSend subCoins setBalance
  simp only [bind_apply, get_apply]
  rw [if_neg (by omega)]
  simp only [modify_apply]

theorem usdn_enough {c : Cfg} {locked : Addr → String → Int} (hl : ∀ x d, 0 ≤ locked x d) {a : Addr} {input : Coins}
    (hv : ValidCoins input) (h0 : amountOf input c.denom ≠ 0) {w : Wallets} (he : ∀ e ∈ input, e.2 + locked a e.1 ≤ w.balance c a e.1) :
    amountOf input c.denom ≤ w.s.balance a := by
  obtain ⟨e, hm, hd, hamt, hpos⟩ := amountOf_pos hv h0
  have hen := he e hm
  have hl' := hl a e.1
  rw [hd] at hen hl'
  have hbal : w.balance c a c.denom = w.s.balance a := by unfold Wallets.balance; rw [if_pos rfl]
  omega

/-- C110: an accepted multi-send of sets of coins does to the module exactly what a multi-send of its USDN alone does, or nothing if there
is no USDN in it, and moves the other coins one for one. -/
theorem C110_multi_alone {c : Cfg} {locked : Addr → String → Int} (hl : ∀ x d, 0 ≤ locked x d) {a : Addr} {input : Coins}
    {outs : List (Addr × Coins)} (hv : ValidMulti input outs) {w w' : Wallets}
    (h : multiSendIn c locked a input outs w = .ok () w') :
    (if amountOf input c.denom = 0 then w'.s = w.s else multiSend c a (usdnOutputs c outs) w.s = .ok () w'.s) ∧
    (∀ e ∈ input, e.2 + locked a e.1 ≤ w.balance c a e.1) ∧
    ∀ x d, d ≠ c.denom → w'.balance c x d = w.balance c x d - (if x = a then amountOf input d else 0) +
      (outs.map fun o => if x = o.1 then amountOf o.2 d else 0).sum := by
  unfold multiSendIn at h
  obtain ⟨_, w1, h1, h2⟩ := bind_ok.1 h
  have hs := sub_ok hv.debit h1
  have he : ∀ e ∈ input, e.2 + locked a e.1 ≤ w.balance c a e.1 := fun e he => by have := hs.enough e he; omega
  obtain ⟨ho, hb⟩ := outputs_ok hv.outputs h2
  refine ⟨?_, he, fun x d hd => by rw [hb x d hd, hs.rest x d hd]⟩
  have hu := hs.usdn
  by_cases h0 : amountOf input c.denom = 0
  · rw [if_pos h0] at hu ⊢
    rw [usdnOutputs_none hv h0] at ho
    have : multiSendOutputs c a [] w1.s = .ok () w1.s := rfl
    rw [this] at ho
    rw [← hu]
    simpa using ho.symm
  · rw [if_neg h0] at hu ⊢
    have hsum : ((usdnOutputs c outs).map Prod.snd).sum = amountOf input c.denom := by
      rw [usdnOutputs_sum, hv.balanced]
    rw [multiSend_stages (by rw [hsum]; exact usdn_enough hl hv.debit h0 he), hsum, ← hu]
    exact ho

/-- C110: a multi-send of sets of coins goes through as soon as the multi-send of its USDN alone does and the sender can spend every coin of
the input. -/
theorem C110_multi_goes {c : Cfg} {locked : Addr → String → Int} (hl : ∀ x d, 0 ≤ locked x d) {a : Addr} {input : Coins}
    {outs : List (Addr × Coins)} (hv : ValidMulti input outs) {w : Wallets} {s' : State}
    (hs : amountOf input c.denom ≠ 0 → multiSend c a (usdnOutputs c outs) w.s = .ok () s')
    (he : ∀ e ∈ input, e.2 + locked a e.1 ≤ w.balance c a e.1) :
    ∃ w', multiSendIn c locked a input outs w = .ok () w' ∧ w'.s = if amountOf input c.denom = 0 then w.s else s' := by
  obtain ⟨w1, h1⟩ := sub_goes (locked := locked) hv.debit
    (fun e h => by have := he e h; omega : ∀ e ∈ input, e.2 ≤ w.balance c a e.1 - locked a e.1)
  have hu := (sub_ok hv.debit h1).usdn
  have key : ∃ s2, multiSendOutputs c a (usdnOutputs c outs) w1.s = .ok () s2 := by
    by_cases h0 : amountOf input c.denom = 0
    · rw [usdnOutputs_none hv h0]; exact ⟨w1.s, rfl⟩
    · rw [if_neg h0] at hu
      have hsum : ((usdnOutputs c outs).map Prod.snd).sum = amountOf input c.denom := by
        rw [usdnOutputs_sum, hv.balanced]
      have := hs h0
      rw [multiSend_stages (by rw [hsum]; exact usdn_enough hl hv.debit h0 he), hsum, ← hu] at this
      exact ⟨s', this⟩
  obtain ⟨s2, h2⟩ := key
  obtain ⟨w', h3⟩ := outputs_go hv.outputs h2
  have hx : multiSendIn c locked a input outs w = .ok () w' := by
    unfold multiSendIn
    simp only [bind_apply, h1]
    exact h3
  refine ⟨w', hx, ?_⟩
  have := (C110_multi_alone hl hv hx).1
  by_cases h0 : amountOf input c.denom = 0
  · rw [if_pos h0] at this ⊢
    exact this
  · rw [if_neg h0] at this ⊢
    rw [hs h0] at this
    simpa using this.symm

/-! ### Non-vacuity: Alice sends Bob and a collector different coins in one message -/

/-- Bob gets USDN and another coin, the collector other coins only. -/
def Demo.shares : List (Addr × Coins) :=
  [(Demo.bob, [("aaa", 2), (Demo.cfg.denom, 1000000)]), (Demo.collector, [("aaa", 3), ("zzz", 7)])]

theorem Demo.shares_valid : ValidMulti Demo.coins Demo.shares := by
  refine ⟨Demo.coins_valid, fun o ho => ?_, fun d => ?_⟩
  · rcases List.mem_cons.1 ho with rfl | ho
    · exact ⟨by decide, by decide⟩
    · obtain rfl := List.mem_singleton.1 ho
      exact ⟨by decide, by decide⟩
  · by_cases h1 : "aaa" = d
    · subst h1; decide
    · by_cases h2 : Demo.cfg.denom = d
      · subst h2; decide
      · by_cases h3 : "zzz" = d
        · subst h3; decide
        · simp [Demo.shares, Demo.coins, amountOf, KV.get?, h1, h2, h3]

example : usdnOutputs Demo.cfg Demo.shares = [(Demo.bob, 1000000)] ∧
    ∃ w', multiSendIn Demo.cfg Demo.locked Demo.alice Demo.coins Demo.shares Demo.wallets = .ok () w' := by
  refine ⟨by decide +kernel, ?_⟩
  have hx : (match multiSendIn Demo.cfg Demo.locked Demo.alice Demo.coins Demo.shares Demo.wallets with
    | .ok _ _ => true | _ => false) = true := by decide +kernel
  cases h : multiSendIn Demo.cfg Demo.locked Demo.alice Demo.coins Demo.shares Demo.wallets with
  | ok _ w => exact ⟨w, rfl⟩
  | err _ _ => rw [h] at hx; cases hx
  | panic => rw [h] at hx; cases hx

end Dollar
