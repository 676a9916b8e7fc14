import Verif.Lemmas.Frame
import Verif.Lemmas.Deliver

/-
How each transaction changes the settings, the archive and the posted messages.
-/
namespace Dollar
open MM

theorem TransferDid.settings {c : Cfg} {a : Addr} {amt : Int} {s s' : State}
    (h : TransferDid c a amt s s') : Dollar.settings s' = Dollar.settings s :=
  (congrArg Dollar.settings h.core :)

/-- What a successful transaction does to the settings. -/
inductive SettingsStep (c : Cfg) (s s' : State) : Msg → Prop
  | same (m : Msg) : settings s' = settings s → SettingsStep c s s' m
  | paused (b : Bool) : settings s' = { settings s with paused := b } →
      SettingsStep c s s' (.setPaused c.authority b)
  | recipients (p : Int) (i r : String) :
      settings s' = { settings s with recipients := s.recipients.set (p, i) r } →
      SettingsStep c s s' (.setYieldRecipient c.authority p i r)
  | vPaused (p : Int) : 0 ≤ p → p ≤ 3 → settings s' = { settings s with vPaused := p } →
      SettingsStep c s s' (.vaultsSetPaused c.authority p)
  | owner (o : String) : s.owner ≠ "" → settings s' = { settings s with owner := o } →
      SettingsStep c s s' (.transferOwnership s.owner o)
  | portalPaused (b : Bool) : s.owner ≠ "" → settings s' = { settings s with portalPaused := b } →
      SettingsStep c s s' (.portalSetPaused s.owner b)
  | peers (ch : Nat) (t m : Bytes) : s.owner ≠ "" → t.length = 32 → m.length = 32 →
      settings s' = { settings s with peers := s.peers.set ch ⟨t, m⟩ } →
      SettingsStep c s s' (.setPeer s.owner ch t m)
  | paths (ch : Nat) (t : Bytes) (b : Bool) : s.owner ≠ "" → t.length = 32 →
      settings s' = { settings s with paths := s.paths.set (ch, t) b } →
      SettingsStep c s s' (.setBridgingPath s.owner ch t b)

theorem settings_step {c : Cfg} {env : Env} {m : Msg} {s s' : State}
    (h : exec c env m s = .ok () s') : SettingsStep c s s' m := by
  by_cases hp : m.isPlain = true
  · exact .same _ (congrArg Prod.fst ((Still.plain c env m hp).ok h) :)
  cases m <;> first | (exact absurd rfl hp) | skip
  · obtain ⟨rfl, rfl⟩ := setPaused_ok h
    exact .paused _ rfl
  · obtain ⟨rfl, _, rfl⟩ := setYieldRecipient_ok h
    exact .recipients _ _ _ rfl
  · exact .same _ (Still.deliver (show deliver _ _ _ _ = _ from h)).1
  · obtain ⟨amt, rfl, ht⟩ := transfer_ok (show transfer c env _ _ _ _ _ s = .ok () s' from h)
    obtain ⟨a, ha⟩ := ht.sender
    exact .same _ (ht.did ha).settings
  · obtain ⟨h0, rfl, rfl⟩ := portalSetPaused_ok h
    exact .portalPaused _ h0 rfl
  · obtain ⟨h0, rfl, _, _, h1, _, h2, _, rfl⟩ := setPeer_ok h
    exact .peers _ _ _ h0 h1 h2 rfl
  · obtain ⟨h0, rfl, _, h1, _, rfl⟩ := setBridgingPath_ok h
    exact .paths _ _ _ h0 h1 rfl
  · obtain ⟨h0, rfl, _, _, rfl⟩ := transferOwnership_ok h
    exact .owner _ h0 rfl
  · obtain ⟨rfl, h1, h2, rfl⟩ := vaultsSetPaused_ok h
    exact .vPaused _ h1 h2 rfl

/-- What a successful transaction does to the archive of delivered VAAs. -/
theorem archive_step {c : Cfg} {env : Env} {m : Msg} {s s' : State}
    (h : exec c env m s = .ok () s') :
    (s'.archive = s.archive ∧ ∀ vaa, m ≠ .deliver vaa) ∨
      ∃ vaa v, m = .deliver vaa ∧ env.verify vaa = some v ∧ v.digest ∉ s.archive ∧
        s'.archive = s.archive ++ [v.digest] := by
  by_cases hp : m.isPlain = true
  · refine .inl ⟨?_, ?_⟩
    · have := (Still.plain c env m hp).ok h
      exact congrArg (fun x => x.2.1) this
    · rintro vaa rfl; cases hp
  cases m <;> first | (exact absurd rfl hp) | skip
  · obtain ⟨rfl, rfl⟩ := setPaused_ok h
    exact .inl ⟨rfl, fun _ h => by cases h⟩
  · obtain ⟨rfl, _, rfl⟩ := setYieldRecipient_ok h
    exact .inl ⟨rfl, fun _ h => by cases h⟩
  · obtain ⟨_, _, _, v, h1, h2, h3⟩ := Still.deliver (show deliver _ _ _ _ = _ from h)
    exact .inr ⟨_, v, rfl, h1, h2, h3⟩
  · obtain ⟨amt, rfl, ht⟩ := transfer_ok (show transfer c env _ _ _ _ _ s = .ok () s' from h)
    obtain ⟨a, ha⟩ := ht.sender
    exact .inl ⟨(ht.did ha).archive, fun _ h => by cases h⟩
  · obtain ⟨h0, rfl, rfl⟩ := portalSetPaused_ok h
    exact .inl ⟨rfl, fun _ h => by cases h⟩
  · obtain ⟨h0, rfl, _, _, h1, _, h2, _, rfl⟩ := setPeer_ok h
    exact .inl ⟨rfl, fun _ h => by cases h⟩
  · obtain ⟨h0, rfl, _, h1, _, rfl⟩ := setBridgingPath_ok h
    exact .inl ⟨rfl, fun _ h => by cases h⟩
  · obtain ⟨h0, rfl, _, _, rfl⟩ := transferOwnership_ok h
    exact .inl ⟨rfl, fun _ h => by cases h⟩
  · obtain ⟨rfl, h1, h2, rfl⟩ := vaultsSetPaused_ok h
    exact .inl ⟨rfl, fun _ h => by cases h⟩

/-- What a successful transaction does to the posted messages and the nonce. -/
theorem posted_step {c : Cfg} {env : Env} {m : Msg} {s s' : State}
    (h : exec c env m s = .ok () s') :
    (s'.posted = s.posted ∧ s'.nonce = s.nonce) ∨
      ∃ signer amt chain token rcp peer a,
        m = .transfer signer (some amt) chain token rcp ∧ s.peers.get? chain = some peer ∧
        c.decode signer = some a ∧ a.length ≤ 32 ∧
        s'.posted = s.posted ++ [((transferMessage c peer s.index amt.toNat chain token rcp
          (List.replicate (32 - a.length) 0 ++ a) s.nonce).2, s.nonce)] ∧
        s'.nonce = (s.nonce + 1) % 2 ^ 32 := by
  by_cases hp : m.isPlain = true
  · have := (Still.plain c env m hp).ok h
    exact .inl ⟨congrArg (fun x => x.2.2.1) this, congrArg (fun x => x.2.2.2) this⟩
  cases m <;> first | (exact absurd rfl hp) | skip
  · obtain ⟨rfl, rfl⟩ := setPaused_ok h
    exact .inl ⟨rfl, rfl⟩
  · obtain ⟨rfl, _, rfl⟩ := setYieldRecipient_ok h
    exact .inl ⟨rfl, rfl⟩
  · obtain ⟨_, h1, h2, _⟩ := Still.deliver (show deliver _ _ _ _ = _ from h)
    exact .inl ⟨h1, h2⟩
  · obtain ⟨amt, rfl, ht⟩ := transfer_ok (show transfer c env _ _ _ _ _ s = .ok () s' from h)
    obtain ⟨peer, a, q, hpe, ha, hl, _, hb, e⟩ := ht.run
    refine .inr ⟨_, amt, _, _, _, peer, a, rfl, hpe, ha, hl, ?_, (ht.did ha).nonce⟩
    obtain ⟨q', hq, _, rfl⟩ := hb.mid
    rw [e]
    show q'.posted ++ _ = s.posted ++ _
    rw [hq.posted]
  · obtain ⟨h0, rfl, rfl⟩ := portalSetPaused_ok h
    exact .inl ⟨rfl, rfl⟩
  · obtain ⟨h0, rfl, _, _, h1, _, h2, _, rfl⟩ := setPeer_ok h
    exact .inl ⟨rfl, rfl⟩
  · obtain ⟨h0, rfl, _, h1, _, rfl⟩ := setBridgingPath_ok h
    exact .inl ⟨rfl, rfl⟩
  · obtain ⟨h0, rfl, _, _, rfl⟩ := transferOwnership_ok h
    exact .inl ⟨rfl, rfl⟩
  · obtain ⟨rfl, h1, h2, rfl⟩ := vaultsSetPaused_ok h
    exact .inl ⟨rfl, rfl⟩

end Dollar
