import Verif.Lemmas.RestJson
import Verif.Props.C116
import Verif.Props.C119
import Verif.Props.C82
import Verif.Props.C59

/-
C120: what the REST interface returns can be read, and says what the chain's state says.
-/
set_option maxRecDepth 100000
namespace Dollar
open MM Spec Json Rest

/-- C120: a client that reads the body by the names of the fields learns the answer of the node, for every query and
every answer whose numbers are in the range of their Go types, in whatever order the maps of the answer are written. -/
theorem C120_read (nanos : PosEntry → Nat) {q : Query} {a : Answer} (hf : Fitting q a) (hr : NumbersFit a) :
    learnText q (ofAnswer nanos (fieldName q) a).text = some a := by
  unfold learnText
  rw [read_text _ (ok_answer nanos _ a)]
  exact learn_ofAnswer nanos hf hr

/-! ### The answers of a chain are in range -/

theorem big_zero : Big 0 := by unfold Big; decide

theorem big_of_bounds {x : Int} (h1 : -2 ^ 250 ≤ x) (h2 : x ≤ 2 ^ 250) : Big x := by
  unfold Big
  omega

theorem mem_goMap {V : Type} {l : List (String × V)} {e : String × V} (h : e ∈ goMap l) : e ∈ l := by
  have key : ∀ (l : List (String × V)) (m : KV String V), e ∈ l.foldl (fun m e => m.set e.1 e.2) m → e ∈ m ∨ e ∈ l := by
    intro l
    induction l with
    | nil => exact fun m h => Or.inl h
    | cons x t ih =>
      intro m h
      rcases ih _ h with h | h
      · rcases KV.mem_set h with h | h
        · exact Or.inr (by rw [h]; exact List.mem_cons_self)
        · exact Or.inl h
      · exact Or.inr (List.mem_cons_of_mem _ h)
  rcases key l [] h with h | h
  · cases h
  · exact h

theorem statsEntry_amount {c : Cfg} {env : Env} {client : String → Client} {k : Int × String} {v : Int}
    {x : String × String × Int} (h : statsEntry c env client (recipientKey k, toString v) = some x) : x.2.2 = v := by
  unfold statsEntry at h
  split at h
  · cases h
    show (intOfString (toString v)).getD 0 = v
    rw [intOfString_toString]
    rfl
  · cases h

theorem mapM_mem {α β : Type} {f : α → Option β} {l : List α} {r : List β} (h : l.mapM f = some r) :
    ∀ y ∈ r, ∃ x ∈ l, f x = some y := by
  induction l generalizing r with
  | nil => cases h; intro y hy; cases hy
  | cons x t ih =>
    rw [List.mapM_cons] at h
    cases hx : f x with
    | none => rw [hx] at h; cases h
    | some u =>
      cases ht : t.mapM f with
      | none => rw [hx, ht] at h; cases h
      | some w =>
        rw [hx, ht] at h
        cases h
        intro y hy
        rcases List.mem_cons.1 hy with rfl | hy
        · exact ⟨x, List.mem_cons_self, hx⟩
        · obtain ⟨z, hz, e⟩ := ih ht y hy
          exact ⟨z, List.mem_cons_of_mem _ hz, e⟩

theorem Checked.add_fits {a b x : Int} (h : Checked.add a b = some x) : Big x := by
  unfold Checked.add Checked.fit at h
  split at h
  next hf => cases h; exact hf
  · cases h

theorem Checked.sumFrom_fits {l : List Int} {acc x : Int} (ha : Big acc) (h : Checked.sumFrom acc l = some x) : Big x := by
  induction l generalizing acc with
  | nil => cases h; exact ha
  | cons y t ih =>
    unfold Checked.sumFrom at h
    obtain ⟨a, h1, h2⟩ := Option.bind_eq_some_iff.1 h
    exact ih (Checked.add_fits h1) h2

theorem Checked.queryWalk_fits {start cur p : Int} {rs : KV Int Reward} {acc total : Int} {x : Int × Int} (ha : Big acc)
    (ht : Big total) (h : Checked.queryWalk start cur p rs acc total = some x) : Big x.1 ∧ Big x.2 := by
  induction rs generalizing acc total with
  | nil => cases h; exact ⟨ha, ht⟩
  | cons e t ih =>
    obtain ⟨k, r⟩ := e
    unfold Checked.queryWalk at h
    split at h
    · exact ih ha ht h
    · obtain ⟨u, _, h⟩ := Option.bind_eq_some_iff.1 h
      obtain ⟨a, h1, h⟩ := Option.bind_eq_some_iff.1 h
      obtain ⟨b, h2, h⟩ := Option.bind_eq_some_iff.1 h
      exact ih (Checked.add_fits h1) (Checked.add_fits h2) h

theorem Checked.queryLoop_fits {s : State} {l : List PosEntry} {total : Int} {x : Int × List (Int × Int)} (ht : Big total)
    (hl : ∀ p ∈ l, Big p.amount) (h : Checked.queryLoop s l total = some x) : Big x.1 ∧ ∀ e ∈ x.2, Big e.1 ∧ Big e.2 := by
  induction l generalizing total x with
  | nil => cases h; exact ⟨ht, fun e he => by cases he⟩
  | cons p t ih =>
    unfold Checked.queryLoop at h
    obtain ⟨q, _, h⟩ := Option.bind_eq_some_iff.1 h
    obtain ⟨r, h1, h⟩ := Option.bind_eq_some_iff.1 h
    obtain ⟨w, h2, h⟩ := Option.bind_eq_some_iff.1 h
    obtain ⟨a1, a2⟩ := Checked.queryWalk_fits big_zero ht h1
    obtain ⟨b1, b2⟩ := ih a2 (fun q hq => hl q (List.mem_cons_of_mem _ hq)) h2
    cases h
    refine ⟨b1, fun e he => ?_⟩
    rcases List.mem_cons.1 he with rfl | he
    · exact ⟨hl p List.mem_cons_self, a1⟩
    · exact b2 e he

theorem answer_fitting {c : Cfg} {env : Env} {client : String → Client} {s : State} {q : Query} {a : Answer}
    (h : answer c env client s q = some a) : Fitting q a := by
  cases q <;> simp only [answer, Option.map_eq_some_iff, Option.some.injEq] at h
  all_goals first
    | (subst h; trivial)
    | (obtain ⟨x, _, rfl⟩ := h; trivial)

/-- The numbers of the answers of a chain in its first 2^39 messages. -/
theorem answer_range {c : Cfg} (hc : c.WF) (ha : ShortAddresses c) {s0 : State} (h0 : Initial c s0) (hf : Fits s0)
    (hlo : 10 ^ 12 ≤ s0.index) {h : History} (hsig : History.Signed c h) (hty : HistTyped h)
    (hlen : h.length ≤ 2 ^ 39) (hold : holdersOf c (run c h s0) < 2 ^ 64) (env : Env) (client : String → Client)
    {q : Query} {a : Answer} (hq : answer c env client (run c h s0) q = some a) : NumbersFit a := by
  have hhi := hf.index.2
  have fits := C82_fits hc ha h0 hf hlo hsig hty (by omega) hold
  obtain ⟨q1, q2⟩ := C119_queries hc h0 hlo hhi hsig hlen
  obtain ⟨small, _⟩ := Small.of_run hc h0 hlo hhi hsig hlen
  have pb := (C71_principal_bounded hc h0 hlo hhi hsig).1
  have hi := (C70_absolute hc h0 hlo hhi hsig).1
  have hd := deliveries_le c h s0
  have hT : (2 ^ 88 * (deliveries c h s0 * h.length : Nat) : Int) ≤ 2 ^ 166 := by
    have : deliveries c h s0 * h.length ≤ 2 ^ 39 * 2 ^ 39 := Nat.mul_le_mul (by omega) (by omega)
    generalize deliveries c h s0 * h.length = n at *
    omega
  have hi0 : 0 < (run c h s0).index := small.led.good.index
  generalize (2 ^ 88 * (deliveries c h s0 * h.length : Nat) : Int) = T at *
  generalize run c h s0 = s at *
  have pos : ∀ p ∈ allPositions s, (-2 ^ 31 ≤ p.vault ∧ p.vault < 2 ^ 31) ∧ Big p.principal ∧
      (-2 ^ 63 ≤ p.index ∧ p.index < 2 ^ 63) ∧ Big p.amount ∧ (-62135596800 ≤ p.time ∧ p.time < 253402300800) := by
    intro p hp
    obtain ⟨e, he, rfl⟩ := List.mem_map.1 hp
    obtain ⟨f1, f2, f3, f4, f5⟩ := fits.positions e he
    exact ⟨f1.2.1, f2, f3, f4, f5⟩
  have prin : ∀ x, Big (s.principalOf x) := by
    intro x
    unfold State.principalOf
    cases hx : s.principal.get? x with
    | none => exact big_zero
    | some v => exact fits.principal _ (KV.mem_of_get? hx)
  cases q <;> simp only [answer, Option.map_eq_some_iff, Option.some.injEq] at hq
  case index | paused | portalPaused | yieldRecipients | retryAmounts | owner | destinationTokens => subst hq; trivial
  case yieldRecipient => obtain ⟨x, _, rfl⟩ := hq; trivial
  case principal acc =>
    obtain ⟨x, hx, rfl⟩ := hq
    obtain ⟨y, _, rfl⟩ := Option.map_eq_some_iff.1 hx
    exact prin y
  case yield acc =>
    obtain ⟨x, hx, rfl⟩ := hq
    obtain ⟨y, _, rfl⟩ := Option.map_eq_some_iff.1 hx
    obtain ⟨b0, b1⟩ := small.bal y
    have hp := (pb y).trans hT
    have hm : |s.principalOf y * s.index| ≤ 2 ^ 166 * 2 ^ 63 := by
      rw [abs_mul, abs_of_pos hi0]
      exact mul_le_mul hp hi.le hi0.le (by norm_num)
    obtain ⟨m1, m2⟩ := abs_le.1 hm
    have hv : -2 ^ 240 ≤ present (s.principalOf y) s.index ∧ present (s.principalOf y) s.index ≤ 2 ^ 240 := by
      unfold present
      generalize s.principalOf y * s.index = z at *
      have := Int.natAbs_tdiv_le_natAbs z SCALE
      omega
    show Big (claimable s y)
    unfold claimable
    dsimp only
    split
    · exact big_zero
    · exact big_of_bounds (by omega) (by omega)
  case stats => subst hq; exact ⟨fits.holders, fits.totalPrincipal, fits.totalYield⟩
  case statsV2 =>
    obtain ⟨x, hx, rfl⟩ := hq
    obtain ⟨l, hl, rfl⟩ := Option.map_eq_some_iff.1 hx
    refine ⟨fits.holders, fits.totalPrincipal, fits.totalYield, fun e he => ?_⟩
    obtain ⟨y, hy, e1⟩ := mapM_mem hl e he
    obtain ⟨z, hz, rfl⟩ := List.mem_map.1 (mem_goMap hy)
    rw [statsEntry_amount e1]
    exact (fits.extYield z hz).2
  case retryAmount p i =>
    subst hq
    show Big (s.retryOf p i)
    unfold State.retryOf
    cases hx : s.retry.get? (p, i) with
    | none => exact big_zero
    | some v => exact (fits.retry _ (KV.mem_of_get? hx)).2
  case peers => subst hq; exact fun e he => (fits.peers e he).1
  case nonce => subst hq; exact fits.nonce
  case positions acc =>
    obtain ⟨x, hx, rfl⟩ := hq
    obtain ⟨y, _, rfl⟩ := Option.map_eq_some_iff.1 hx
    exact fun p hp => pos p (List.mem_filter.1 hp).1
  case pendingRewards =>
    subst hq
    exact Checked.sumFrom_fits big_zero q1
  case pendingRewardsBy acc =>
    obtain ⟨x, hx, rfl⟩ := hq
    rw [← q2 acc] at hx
    obtain ⟨y, _, hx⟩ := Option.bind_eq_some_iff.1 hx
    refine Checked.queryLoop_fits big_zero (fun p hp => ?_) hx
    obtain ⟨e, he, h⟩ := List.mem_filterMap.1 hp
    split at h
    · cases h; exact (fits.positions e he).2.2.2.1
    · cases h
  case vaultsPaused => subst hq; exact fits.vPaused
  case vaultsStats => subst hq; exact fits.vstats

/-- C120: a GET request whose path asks a query: a client that reads the body by the names of the fields learns exactly
the answer of the query on the state of the chain, and there is no body exactly if the query has no answer.  For every
history of up to 2^39 messages of every chain from an initial state. -/
theorem C120_get {c : Cfg} (hc : c.WF) (ha : ShortAddresses c) {s0 : State} (h0 : Initial c s0) (hf : Fits s0)
    (hlo : 10 ^ 12 ≤ s0.index) {h : History} (hsig : History.Signed c h) (hty : HistTyped h)
    (hlen : h.length ≤ 2 ^ 39) (hold : holdersOf c (run c h s0) < 2 ^ 64) (env : Env) (client : String → Client)
    (nanos : PosEntry → Nat) {q : Query} {path : String} (hp : Asks q path) :
    (Rest.get c env client nanos (run c h s0) path).bind (learnText q) = answer c env client (run c h s0) q := by
  unfold Rest.get
  rw [(C116_reaches path q).2 hp]
  cases hq : answer c env client (run c h s0) q with
  | none => simp [hq]
  | some a =>
    simp only [hq, Option.map_some, Option.bind_some]
    exact C120_read nanos (answer_fitting hq) (answer_range hc ha h0 hf hlo hsig hty hlen hold env client hq)

/-- C120: a path that asks no query returns nothing. -/
theorem C120_nothing (c : Cfg) (env : Env) (client : String → Client) (nanos : PosEntry → Nat) (s : State)
    {path : String} (hp : ∀ q, ¬ Asks q path) : Rest.get c env client nanos s path = none := by
  unfold Rest.get
  split
  next q e => exact absurd ((C116_reaches path q).1 e) (hp q)
  · rfl

/-- C120: the principal, the claimable yield, the index: the queries by which a wallet shows a balance. -/
theorem C120_wallet {c : Cfg} (hc : c.WF) (ha : ShortAddresses c) {s0 : State} (h0 : Initial c s0) (hf : Fits s0)
    (hlo : 10 ^ 12 ≤ s0.index) {h : History} (hsig : History.Signed c h) (hty : HistTyped h)
    (hlen : h.length ≤ 2 ^ 39) (hold : holdersOf c (run c h s0) < 2 ^ 64) (env : Env) (client : String → Client)
    (nanos : PosEntry → Nat) (account : String) (x : Addr) (hx : c.decode account = some x)
    (hs : Slashless account) (hcol : ':' ∉ account.toList) :
    let s := run c h s0
    (Rest.get c env client nanos s ("/noble/dollar/v1/principal" ++ "/" ++ account)).bind (learnText (.principal account)) =
      some (.amount (s.principalOf x)) ∧
    (Rest.get c env client nanos s ("/noble/dollar/v1/yield" ++ "/" ++ account)).bind (learnText (.yield account)) =
      some (.amount (claimable s x)) ∧
    (Rest.get c env client nanos s "/noble/dollar/v1/index").bind (learnText .index) =
      some (.index (s.index * 10 ^ 6)) := by
  intro s
  have e := C116_everyday account "x" 0 hs (by unfold Slashless; decide) hcol (by decide) (by decide)
  refine ⟨?_, ?_, ?_⟩
  · rw [C120_get hc ha h0 hf hlo hsig hty hlen hold env client nanos ((C116_reaches _ _).1 e.1)]
    simp only [answer, queryPrincipal, hx, Option.map_some]
    rfl
  · rw [C120_get hc ha h0 hf hlo hsig hty hlen hold env client nanos ((C116_reaches _ _).1 e.2.1)]
    simp only [answer, queryYield, hx, Option.map_some]
    rfl
  · rw [C120_get hc ha h0 hf hlo hsig hty hlen hold env client nanos ((C116_reaches _ _).1 (by decide +kernel))]
    have := C59_index s
    show some (Answer.index (queryIndex s)) = _
    rw [show queryIndex s = s.index * 10 ^ 6 by omega]

/-! ### Numbers without quotes -/

theorem num_commas {t : List Char} {l : List (List Tok)} (h : Tok.num t ∈ commas l) : ∃ x ∈ l, Tok.num t ∈ x := by
  induction l with
  | nil => cases h
  | cons a r ih =>
    cases r with
    | nil => exact ⟨a, List.mem_cons_self, h⟩
    | cons b r =>
      rcases List.mem_append.1 h with h | h
      · exact ⟨a, List.mem_cons_self, h⟩
      · rcases List.mem_cons.1 h with h | h
        · cases h
        · obtain ⟨x, hx, h⟩ := ih h
          exact ⟨x, List.mem_cons_of_mem _ hx, h⟩

theorem num_obj {t : List Char} {l : List (List Char × J)} (h : Tok.num t ∈ (J.obj l).toks) :
    ∃ e ∈ l, Tok.num t ∈ e.2.toks := by
  rw [J.toks] at h
  rcases List.mem_cons.1 h with h | h
  · cases h
  rcases List.mem_append.1 h with h | h
  · obtain ⟨x, hx, h⟩ := num_commas h
    clear * - hx h
    induction l with
    | nil => rw [toksMembers] at hx; cases hx
    | cons a r ih =>
      obtain ⟨k, j⟩ := a
      rw [toksMembers] at hx
      rcases List.mem_cons.1 hx with rfl | hx
      · refine ⟨(k, j), List.mem_cons_self, ?_⟩
        rcases List.mem_cons.1 h with h | h
        · cases h
        rcases List.mem_cons.1 h with h | h
        · cases h
        · exact h
      · obtain ⟨e, he, h⟩ := ih hx
        exact ⟨e, List.mem_cons_of_mem _ he, h⟩
  · rcases List.mem_singleton.1 h with h
    cases h

theorem num_arr {t : List Char} {l : List J} (h : Tok.num t ∈ (J.arr l).toks) : ∃ e ∈ l, Tok.num t ∈ e.toks := by
  rw [J.toks] at h
  rcases List.mem_cons.1 h with h | h
  · cases h
  rcases List.mem_append.1 h with h | h
  · obtain ⟨x, hx, h⟩ := num_commas h
    clear * - hx h
    induction l with
    | nil => rw [toksAll] at hx; cases hx
    | cons a r ih =>
      rw [toksAll] at hx
      rcases List.mem_cons.1 hx with rfl | hx
      · exact ⟨a, List.mem_cons_self, h⟩
      · obtain ⟨e, he, h⟩ := ih hx
        exact ⟨e, List.mem_cons_of_mem _ he, h⟩
  · rcases List.mem_singleton.1 h with h
    cases h

theorem num_fields {t : List Char} {l : List (String × J)} (h : Tok.num t ∈ (J.ofFields l).toks) :
    ∃ e ∈ l, Tok.num t ∈ e.2.toks := by
  obtain ⟨e, he, h⟩ := num_obj h
  obtain ⟨x, hx, rfl⟩ := List.mem_map.1 he
  exact ⟨x, hx, h⟩

theorem num_str {t s : List Char} (h : Tok.num t ∈ (J.str s).toks) : False := by
  rw [J.toks] at h
  cases List.mem_singleton.1 h

theorem num_bool {t : List Char} {b : Bool} (h : Tok.num t ∈ (J.bool b).toks) : False := by
  rw [J.toks] at h
  cases List.mem_singleton.1 h

theorem num_num {t : List Char} {x : Int} (h : Tok.num t ∈ (J.ofNum x).toks) : t = (toString x).toList := by
  unfold J.ofNum at h
  rw [J.toks] at h
  cases List.mem_singleton.1 h
  rfl

theorem num_enum {t : List Char} {names : List (Int × String)} {x : Int} (h : Tok.num t ∈ (J.ofEnum names x).toks) :
    t = (toString x).toList := by
  unfold J.ofEnum at h
  split at h
  · exact (num_str h).elim
  · exact num_num h

theorem num_quoted {t : List Char} {l : List (String × J)} (hl : ∀ e ∈ l, ∃ s, e.2 = .str s)
    (h : Tok.num t ∈ (J.ofFields l).toks) : False := by
  obtain ⟨e, he, h⟩ := num_fields h
  obtain ⟨s, hs⟩ := hl e he
  rw [hs] at h
  exact num_str h

/-- C120: no amount is written as a bare number: every number outside quotes is below 2^32 in absolute value, so that a
client that reads numbers as 64-bit floats loses nothing. -/
theorem C120_unquoted (nanos : PosEntry → Nat) (q : Query) {a : Answer} (hr : NumbersFit a) {t : List Char}
    (h : Tok.num t ∈ (ofAnswer nanos (fieldName q) a).toks) :
    ∃ x : Int, x.natAbs < 2 ^ 32 ∧ t = (toString x).toList := by
  cases a with
  | index d => exact (num_quoted (by simp) h).elim
  | flag b =>
    obtain ⟨e, he, h⟩ := num_fields h
    rw [List.mem_singleton.1 he] at h
    exact (num_bool h).elim
  | amount x => exact (num_quoted (by simp [J.ofBig]) h).elim
  | stats x => exact (num_quoted (by simp [J.ofBig]) h).elim
  | statsV2 x ext =>
    obtain ⟨e, he, h⟩ := num_fields h
    simp only [List.mem_cons, List.not_mem_nil, or_false] at he
    rcases he with rfl | rfl | rfl | rfl
    · exact (num_str h).elim
    · exact (num_str h).elim
    · exact (num_str h).elim
    · obtain ⟨e, he, h⟩ := num_obj h
      obtain ⟨y, _, rfl⟩ := List.mem_map.1 he
      exact (num_quoted (by simp [J.ofBig, J.ofString]) h).elim
  | texts l =>
    obtain ⟨e, he, h⟩ := num_fields h
    rw [List.mem_singleton.1 he] at h
    obtain ⟨e, he, h⟩ := num_obj h
    obtain ⟨y, _, rfl⟩ := List.mem_map.1 he
    exact (num_str h).elim
  | text s => exact (num_quoted (by simp [J.ofString]) h).elim
  | peers l =>
    obtain ⟨e, he, h⟩ := num_fields h
    rw [List.mem_singleton.1 he] at h
    obtain ⟨e, he, h⟩ := num_obj h
    obtain ⟨y, _, rfl⟩ := List.mem_map.1 he
    exact (num_quoted (by simp [J.ofBytes]) h).elim
  | tokens l =>
    obtain ⟨e, he, h⟩ := num_fields h
    rw [List.mem_singleton.1 he] at h
    obtain ⟨e, he, h⟩ := num_arr h
    obtain ⟨y, _, rfl⟩ := List.mem_map.1 he
    exact (num_str h).elim
  | nonce n =>
    obtain ⟨e, he, h⟩ := num_fields h
    rw [List.mem_singleton.1 he] at h
    exact ⟨n, hr, num_num h⟩
  | positions l =>
    obtain ⟨e, he, h⟩ := num_fields h
    rw [List.mem_singleton.1 he] at h
    obtain ⟨e, he, h⟩ := num_arr h
    obtain ⟨y, hy, rfl⟩ := List.mem_map.1 he
    obtain ⟨e, he, h⟩ := num_fields h
    simp only [List.mem_cons, List.not_mem_nil, or_false] at he
    have := (hr y hy).1
    rcases he with rfl | rfl | rfl | rfl | rfl | rfl
    · exact (num_str h).elim
    · exact ⟨y.vault, by omega, num_enum h⟩
    all_goals exact (num_str h).elim
  | pending total l =>
    obtain ⟨e, he, h⟩ := num_fields h
    simp only [List.mem_cons, List.not_mem_nil, or_false] at he
    rcases he with rfl | rfl
    · exact (num_str h).elim
    · obtain ⟨e, he, h⟩ := num_arr h
      obtain ⟨y, hy, rfl⟩ := List.mem_map.1 he
      exact (num_quoted (by simp [J.ofBig]) h).elim
  | pausing x =>
    obtain ⟨e, he, h⟩ := num_fields h
    rw [List.mem_singleton.1 he] at h
    have : -2 ^ 31 ≤ x ∧ x < 2 ^ 31 := hr
    exact ⟨x, by omega, num_enum h⟩
  | vaultsStats v => exact (num_quoted (by simp [J.ofBig]) h).elim

/-! ### Bodies on the demo chain -/

/-- The body of a request after the full demo history. -/
def Demo.body (path : String) : Option (List Char) :=
  Rest.get Demo.cfg (Demo.env 99) (fun _ => .none) (fun _ => 0) (run Demo.cfg Demo.histFull Demo.start) path

/-! Bodies after the full demo history, character by character. -/

example : Demo.body "/noble/dollar/v1/index" = some "{\"index\":\"1.100000000000000000\"}".toList := by decide +kernel
example : Demo.body "/noble/dollar/v1/stats" =
    some "{\"total_holders\":\"3\",\"total_principal\":\"10000000\",\"total_yield_accrued\":\"1000000\"}".toList := by decide +kernel
example : Demo.body ("/noble/dollar/v1/principal/" ++ Demo.aliceS) = some "{\"principal\":\"5636363\"}".toList := by decide +kernel
example : Demo.body ("/noble/dollar/v1/yield/" ++ Demo.aliceS) = some "{\"claimable_amount\":\"699999\"}".toList := by decide +kernel
example : Demo.body "/noble/dollar/vaults/v1/paused" = some "{\"paused\":\"NONE\"}".toList := by decide +kernel
example : Demo.body "/noble/dollar/portal/v1/nonce" = some "{\"nonce\":0}".toList := by decide +kernel
example : Demo.body "/noble/dollar/v2/retry_amounts" =
    some "{\"retry_amounts\":{\"HYPERLANE/A\":\"199999\",\"HYPERLANE/B\":\"99999\"}}".toList := by decide +kernel
example : Demo.body ("/noble/dollar/vaults/v1/positions/" ++ Demo.aliceS) =
    some ("{\"positions\":[{\"address\":\"AgAAAAAAAAAAAAAAAAAAAAAAAAE=\",\"vault\":\"STAKED\"," ++
      "\"principal\":\"1363636\",\"index\":\"1100000000000\",\"amount\":\"1500000\"," ++
      "\"time\":\"1970-01-01T00:00:09Z\"}]}").toList := by decide +kernel
example : Demo.body "/noble/dollar/v1/nothing" = none := by decide +kernel

/-- The hypotheses of C120_get on the demo chain, for its most involved answer. -/
example (env : Env) (client : String → Client) (nanos : PosEntry → Nat) :
    (Rest.get Demo.cfg env client nanos (run Demo.cfg Demo.histFull Demo.start) "/noble/dollar/v2/stats").bind
      (learnText .statsV2) = answer Demo.cfg env client (run Demo.cfg Demo.histFull Demo.start) .statsV2 :=
  C120_get Demo.cfg_wf Demo.short Demo.start_initial Demo.start_fits (by decide +kernel) Demo.full_signed Demo.full_typed
    (by decide +kernel) (by decide +kernel) env client nanos ((C116_reaches _ _).1 (by decide +kernel))

/-- What a client must not take for an answer: a field of another name, a decimal without quotes, an enumeration in lower case, text after the object. -/
example : learnText .nonce "{\"nonce\":5}".toList = some (.nonce 5) ∧
    learnText .nonce "{\"nonces\":5}".toList = none ∧
    learnText .pendingRewards "{\"pending_rewards\":\"5\"}".toList = some (.amount 5) ∧
    learnText (.yield "a") "{\"pending_rewards\":\"5\"}".toList = none ∧
    learnText .index "{\"index\":\"1.100000000000000000\"}".toList = some (.index 1100000000000000000) ∧
    learnText .index "{\"index\":1.1}".toList = none ∧
    learnText .vaultsPaused "{\"paused\":\"ALL\"}".toList = some (.pausing 3) ∧
    learnText .vaultsPaused "{\"paused\":\"all\"}".toList = none ∧
    learnText .nonce "{\"nonce\":5}}".toList = none := by decide +kernel

end Dollar
