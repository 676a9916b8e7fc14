import Verif.Lemmas.Rest
import Verif.Spec.Rest

/-
C116: the REST interface.  Every path reaches at most one query, whatever the order of the routes; a query is reached exactly from
its address, or from its address followed by a colon; the queries without an address are those whose account or identifier contains
a slash.
-/
namespace Dollar

open Rest Spec

/-- The segments from which a query is built. -/
def Spec.Segs (q : Query) (l : List (List Char)) : Prop :=
  ∃ r ∈ routes, ∃ ps, matchOps r.1.pool r.1.ops l [] [] = some ps ∧ r.2 ps = some q

theorem serve_iff (rest : List Char) (q : Query) : serve routes ('/' :: rest) = .query q ↔
    ∃ init c d, splitPath rest = init ++ [c] ∧ seen c = some d ∧ Segs q (init ++ [d]) := by
  obtain ⟨init, c, hs⟩ : ∃ init c, splitPath rest = init ++ [c] :=
    ⟨_, _, (List.dropLast_concat_getLast (splitPath_ne rest)).symm⟩
  have hu : ∀ init' c', splitPath rest = init' ++ [c'] → init' = init ∧ c' = c := by
    intro i' c' h
    rw [hs] at h
    have := List.append_inj' h rfl
    exact ⟨this.1.symm, (List.cons.inj this.2).1.symm⟩
  have hv := cutVerb_snoc init c
  rw [← hs] at hv
  rw [serve]
  cases hc : cutVerb (splitPath rest) with
  | none =>
    rw [hc] at hv
    refine ⟨fun h => (nomatch h), ?_⟩
    rintro ⟨i', c', d, h1, h2, _⟩
    obtain ⟨rfl, rfl⟩ := hu _ _ h1
    rw [h2] at hv
    cases hv
  | some x =>
    obtain ⟨cs, v⟩ := x
    rw [hc] at hv
    show firstMatch cs v routes = _ ↔ _
    rw [firstMatch_query routes_apart]
    cases hd : seen c with
    | none => rw [hd] at hv; cases hv
    | some d =>
      rw [hd] at hv
      have hv : putVerb cs v = init ++ [d] := Option.some.inj hv
      unfold Pattern.match
      rw [hv]
      constructor
      · intro h
        exact ⟨init, c, d, hs, hd, h⟩
      · rintro ⟨i', c', d', h1, h2, h3⟩
        obtain ⟨rfl, rfl⟩ := hu _ _ h1
        rw [hd] at h2
        cases h2
        exact h3

/-! ### Segments and addresses -/

theorem parse_provider (t : List Char) (p : Int) : enum t providerNumbers = some p ↔ ProviderText (String.ofList t) p := by
  unfold enum providerNumbers ProviderText Numeral int32
  rw [String.toList_ofList]
  by_cases h1 : String.ofList t = "IBC"
  · rw [h1]
    have : GoInt.parse (t.map Char.toNat) = none := by
      rw [← String.toList_ofList (l := t), h1]
      decide
    rw [this]
    constructor
    · intro h
      exact .inl ⟨rfl, (Option.some.inj h).symm⟩
    · rintro (⟨_, rfl⟩ | ⟨h, _⟩ | ⟨h, _⟩)
      · rfl
      · exact absurd h (by decide)
      · cases h
  by_cases h2 : String.ofList t = "HYPERLANE"
  · rw [h2]
    have : GoInt.parse (t.map Char.toNat) = none := by
      rw [← String.toList_ofList (l := t), h2]
      decide
    rw [this]
    constructor
    · intro h
      exact .inr (.inl ⟨rfl, (Option.some.inj h).symm⟩)
    · rintro (⟨h, _⟩ | ⟨_, rfl⟩ | ⟨h, _⟩)
      · exact absurd h (by decide)
      · rfl
      · cases h
  have hl : List.lookup (String.ofList t) [("IBC", (0 : Int)), ("HYPERLANE", 1)] = none := by
    rw [List.lookup_cons, beq_eq_false_iff_ne.2 h1]
    show List.lookup _ _ = none
    rw [List.lookup_cons, beq_eq_false_iff_ne.2 h2]
    rfl
  rw [hl]
  simp only [h1, h2, false_and, false_or]
  cases hp : GoInt.parse (t.map Char.toNat) with
  | none => simp
  | some n =>
    simp only [Option.some.injEq]
    by_cases hr : -(2 ^ 31) ≤ n ∧ n < 2 ^ 31
    · rw [if_pos hr]
      simp only [List.map_cons, List.map_nil, List.mem_cons, List.not_mem_nil, or_false]
      constructor
      · intro h
        split at h
        · cases h
          exact ⟨rfl, by assumption⟩
        · cases h
      · rintro ⟨rfl, h⟩
        rw [if_pos h]
    · rw [if_neg hr]
      refine ⟨fun h => (nomatch h), fun ⟨e, h⟩ => absurd ?_ hr⟩
      rcases h with h | h <;> subst h <;> subst e <;> decide

theorem parse_chain (t : List Char) (n : Nat) : uint32 t = some n ↔ ChainText (String.ofList t) n := by
  unfold uint32 ChainText Numeral
  rw [String.toList_ofList]
  have hx : ∀ x : Char, x.toNat = 43 ↔ x = '+' := fun x => by rw [← Char.toNat_inj]; rfl
  have hy : ∀ x : Char, x.toNat = 45 ↔ x = '-' := fun x => by rw [← Char.toNat_inj]; rfl
  cases t with
  | nil => simp [GoInt.parse, GoInt.whole, GoInt.scanNat, GoInt.scanEnd, GoInt.scanDigits]
  | cons c t =>
    rw [List.map_cons, GoInt.parse]
    simp only [List.head?_cons, ne_eq, Option.some.injEq]
    have sign : ∀ {m : Nat} {r : List Nat}, m = 43 ∨ m = 45 → GoInt.whole (GoInt.scanNat (m :: r)) = none := by
      intro m r hm
      unfold GoInt.scanNat
      rw [if_neg (by omega), GoInt.scanDigits, if_neg (by omega), if_pos (by rcases hm with rfl | rfl <;> decide)]
      rfl
    by_cases h1 : c = '-'
    · rw [sign (.inr ((hy c).2 h1))]
      simp [h1]
    · by_cases h2 : c = '+'
      · rw [sign (.inl ((hx c).2 h2))]
        simp [h2]
      · rw [if_neg (fun h => h1 ((hy c).1 h)), if_neg (fun h => h2 ((hx c).1 h))]
        cases GoInt.whole (GoInt.scanNat (c.toNat :: t.map Char.toNat)) with
        | none => exact ⟨fun h => (nomatch h), fun h => (nomatch h.1)⟩
        | some m =>
          simp only [h1, h2, not_false_eq_true, and_true]
          show (if m < 2 ^ 32 then some m else none) = some n ↔ some (m : Int) = some (n : Int) ∧ n < 2 ^ 32
          constructor
          · intro h
            split at h
            · cases h
              exact ⟨rfl, by assumption⟩
            · cases h
          · rintro ⟨e, h⟩
            have e : m = n := by exact_mod_cast Option.some.inj e
            subst e
            rw [if_pos h]

/-- The segments of every query. -/
theorem segs_iff (q : Query) (l : List (List Char)) : Segs q l ↔
    match q with
    | .index => l = ["noble".toList, "dollar".toList, "v1".toList, "index".toList]
    | .paused => l = ["noble".toList, "dollar".toList, "v1".toList, "paused".toList]
    | .principal a => l = ["noble".toList, "dollar".toList, "v1".toList, "principal".toList, a.toList]
    | .yield a => l = ["noble".toList, "dollar".toList, "v1".toList, "yield".toList, a.toList]
    | .stats => l = ["noble".toList, "dollar".toList, "v1".toList, "stats".toList]
    | .statsV2 => l = ["noble".toList, "dollar".toList, "v2".toList, "stats".toList]
    | .yieldRecipients => l = ["noble".toList, "dollar".toList, "v2".toList, "yield_recipients".toList]
    | .yieldRecipient p i => ∃ t : String, ProviderText t p ∧
        l = ["noble".toList, "dollar".toList, "v2".toList, "yield_recipient".toList, t.toList, i.toList]
    | .retryAmounts => l = ["noble".toList, "dollar".toList, "v2".toList, "retry_amounts".toList]
    | .retryAmount p i => ∃ t : String, ProviderText t p ∧
        l = ["noble".toList, "dollar".toList, "v2".toList, "retry_amount".toList, t.toList, i.toList]
    | .owner => l = ["noble".toList, "dollar".toList, "portal".toList, "v1".toList, "owner".toList]
    | .portalPaused => l = ["noble".toList, "dollar".toList, "portal".toList, "v1".toList, "paused".toList]
    | .peers => l = ["noble".toList, "dollar".toList, "portal".toList, "v1".toList, "peers".toList]
    | .destinationTokens n => ∃ t : String, ChainText t n ∧
        l = ["noble".toList, "dollar".toList, "portal".toList, "v1".toList, "destination_tokens".toList, t.toList]
    | .nonce => l = ["noble".toList, "dollar".toList, "portal".toList, "v1".toList, "nonce".toList]
    | .positions a => l = ["noble".toList, "dollar".toList, "vaults".toList, "v1".toList, "positions".toList, a.toList]
    | .pendingRewards => l = ["noble".toList, "dollar".toList, "vaults".toList, "v1".toList, "pending_rewards".toList]
    | .pendingRewardsBy a =>
        l = ["noble".toList, "dollar".toList, "vaults".toList, "v1".toList, "pending_rewards".toList, a.toList]
    | .vaultsPaused => l = ["noble".toList, "dollar".toList, "vaults".toList, "v1".toList, "paused".toList]
    | .vaultsStats => l = ["noble".toList, "dollar".toList, "vaults".toList, "v1".toList, "stats".toList] := by
  have hs : ∀ (x : List Char) (a : String), String.ofList x = a ↔ x = a.toList := by
    intro x a
    constructor
    · rintro rfl
      exact String.toList_ofList.symm
    · rintro rfl
      exact String.ofList_toList
  unfold Segs
  simp only [routes, routesV1, routesV2, routesPortal, routesVaults, List.cons_append, List.nil_append, List.mem_cons,
    List.not_mem_nil, or_false, exists_eq_or_imp, exists_eq_left, match_lit4, match_lit5, match_lit4_one, match_lit4_two,
    match_lit5_one, Option.ite_none_right_eq_some]
  cases q <;>
    simp [text, routeArgs, List.lookup, Option.bind_eq_some_iff, hs, parse_provider, parse_chain]
  all_goals
    exact ⟨fun ⟨x, h, h'⟩ => ⟨String.ofList x, h', by rw [String.toList_ofList]; exact h⟩,
      fun ⟨t, h, h'⟩ => ⟨t.toList, h', by rw [String.ofList_toList]; exact h⟩⟩

theorem address_iff (q : Query) (p : String) : Address q p ↔
    ∃ l, l ≠ [] ∧ (∀ x ∈ l, '/' ∉ x) ∧ p.toList = '/' :: joinSlash l ∧ Segs q l := by
  have hs : ∀ a : String, p = a ↔ p.toList = a.toList := fun a => String.toList_inj.symm
  cases q <;> simp only [segs_iff, Address, Slashless, hs, String.toList_append]
  case principal | yield | positions | pendingRewardsBy =>
    constructor
    · rintro ⟨h1, h2⟩
      exact ⟨_, by simp, by simp [h1], by rw [h2]; simp [joinSlash], rfl⟩
    · rintro ⟨l, _, h1, h2, rfl⟩
      exact ⟨h1 _ (by simp), by rw [h2]; simp [joinSlash]⟩
  case yieldRecipient | retryAmount =>
    constructor
    · rintro ⟨t, h0, h1, h1', h2⟩
      exact ⟨_, by simp, by simp [h1, h1'], by rw [h2]; simp [joinSlash], t, h0, rfl⟩
    · rintro ⟨l, _, h1, h2, t, h0, rfl⟩
      exact ⟨t, h0, h1 _ (by simp), h1 _ (by simp), by rw [h2]; simp [joinSlash]⟩
  case destinationTokens =>
    constructor
    · rintro ⟨t, h0, h1, h2⟩
      exact ⟨_, by simp, by simp [h1], by rw [h2]; simp [joinSlash], t, h0, rfl⟩
    · rintro ⟨l, _, h1, h2, t, h0, rfl⟩
      exact ⟨t, h0, h1 _ (by simp), by rw [h2]; simp [joinSlash]⟩
  all_goals
    constructor
    · intro h2
      exact ⟨_, by simp, by simp, by rw [h2]; simp [joinSlash], rfl⟩
    · rintro ⟨l, _, h1, h2, rfl⟩
      rw [h2]
      simp [joinSlash]

/-- The last segment stands after the last slash. -/
theorem join_last (init : List (List Char)) : ∃ pre, ∀ d, '/' :: joinSlash (init ++ [d]) = pre ++ '/' :: d := by
  induction init with
  | nil => exact ⟨[], fun d => rfl⟩
  | cons x t ih =>
    obtain ⟨pre, h⟩ := ih
    refine ⟨'/' :: x ++ pre, fun d => ?_⟩
    have : joinSlash (x :: t ++ [d]) = x ++ '/' :: joinSlash (t ++ [d]) := by
      cases t <;> rfl
    rw [this, h]
    simp

theorem last_slash {a b d e : List Char} (hd : '/' ∉ d) (he : '/' ∉ e) (h : a ++ '/' :: d = b ++ '/' :: e) : d = e := by
  rcases List.append_eq_append_iff.1 h with ⟨x, h1, h2⟩ | ⟨x, h1, h2⟩
  · cases x with
    | nil => exact (List.cons.inj h2).2
    | cons y x =>
      have := (List.cons.inj h2).2
      exact absurd (by rw [this]; simp) hd
  · cases x with
    | nil => exact (List.cons.inj h2).2.symm
    | cons y x =>
      have := (List.cons.inj h2).2
      exact absurd (by rw [this]; simp) he

theorem last_char {a d : List Char} {x y : Char} (hxy : x ≠ y) (h : (∃ b, a ++ x :: d = b ++ [y])) : ∃ c, d = c ++ [y] := by
  obtain ⟨b, h⟩ := h
  cases d using List.reverseRecOn with
  | nil =>
    have := (List.append_inj' h rfl).2
    exact absurd (List.cons.inj this).1 hxy
  | append_singleton d z =>
    have h : (a ++ x :: d) ++ [z] = b ++ [y] := by rw [← h]; simp
    exact ⟨d, by rw [(List.append_inj' h rfl).2]⟩

theorem plain_iff {p : String} {pre d : List Char} (h : p.toList = pre ++ '/' :: d) (hd : '/' ∉ d) :
    PlainPath p ↔ (∀ a, d ≠ a ++ [':']) ∧ ∀ b, d = ':' :: b → ':' ∈ b := by
  unfold PlainPath Slashless
  constructor
  · rintro ⟨h1, h2⟩
    refine ⟨fun a e => ?_, fun b e => ?_⟩
    · refine h1 (String.ofList (pre ++ '/' :: a)) (String.toList_inj.1 ?_)
      rw [h, e]
      simp
    · have := h2 (String.ofList pre) (String.ofList b) (String.toList_inj.1 (by rw [h, e]; simp))
      simp only [String.toList_ofList] at this
      refine this fun hb => hd ?_
      rw [e]
      exact List.mem_cons_of_mem _ hb
  · rintro ⟨h1, h2⟩
    refine ⟨fun a e => ?_, fun a b e hb => ?_⟩
    · obtain ⟨c, hc⟩ := last_char (a := pre) (d := d) (x := '/') (y := ':') (by decide)
        ⟨a.toList, by rw [← h, e]; simp⟩
      exact h1 c hc
    · refine h2 _ (last_slash (a := pre) (b := a.toList) (e := ':' :: b.toList) hd ?_ ?_)
      · intro h
        rcases List.mem_cons.1 h with h | h
        · exact absurd h (by decide)
        · exact hb h
      · rw [← h, e]
        simp

/-- C116: a path reaches a query exactly if it asks for it. -/
theorem C116_reaches (p : String) (q : Query) : request p = .query q ↔ Asks q p := by
  unfold request Asks
  constructor
  · intro h
    cases hp : p.toList with
    | nil => rw [hp] at h; cases h
    | cons x rest =>
      rw [hp] at h
      by_cases hx : x = '/'
      · subst hx
        obtain ⟨init, c, d, h1, h2, h3⟩ := (serve_iff rest q).1 h
        obtain ⟨hj, hn⟩ := splitPath_spec rest
        rw [h1] at hj hn
        obtain ⟨pre, hpre⟩ := join_last init
        have hc : '/' ∉ c := hn c (by simp)
        rcases seen_iff.1 h2 with ⟨rfl, h4⟩ | ⟨rfl, h4⟩
        · left
          refine ⟨(address_iff q p).2 ⟨init ++ [c], by simp, hn, by rw [hp, hj], h3⟩, ?_⟩
          exact (plain_iff (pre := pre) (d := c) (by rw [hp, ← hj, hpre]) hc).2 h4
        · right
          have hd : '/' ∉ d := fun h => hc (List.mem_append_left _ h)
          refine ⟨String.ofList ('/' :: joinSlash (init ++ [d])), ?_, ?_, fun b e => ?_⟩
          · refine String.toList_inj.1 ?_
            rw [hp, ← hj, hpre, String.toList_append, String.toList_ofList, hpre]
            simp
          · refine (address_iff q _).2 ⟨init ++ [d], by simp, ?_, by rw [String.toList_ofList], h3⟩
            intro x hx
            rcases List.mem_append.1 hx with hx | hx
            · exact hn x (List.mem_append_left _ hx)
            · rw [List.mem_singleton.1 hx]
              exact hd
          · have e := congrArg String.toList e
            rw [String.toList_ofList, hpre, String.toList_append] at e
            have := last_slash (a := pre) (b := b.toList) (d := d) (e := []) hd List.not_mem_nil e
            exact h4 this
      · exfalso
        unfold serve at h
        split at h
        · rename_i heq
          exact hx (List.cons.inj heq).1
        · cases h
  · have key : ∀ {a : String}, Address q a → ∃ init d pre, (∀ x ∈ init, '/' ∉ x) ∧ '/' ∉ d ∧
        (∀ d, '/' :: joinSlash (init ++ [d]) = pre ++ '/' :: d) ∧ a.toList = pre ++ '/' :: d ∧ Segs q (init ++ [d]) := by
      intro a ha
      obtain ⟨l, h0, h1, h2, h3⟩ := (address_iff q a).1 ha
      obtain ⟨pre, hpre⟩ := join_last l.dropLast
      have hl := List.dropLast_concat_getLast h0
      refine ⟨l.dropLast, l.getLast h0, pre, fun x hx => h1 x (List.dropLast_subset l hx), h1 _ (List.getLast_mem h0), hpre, ?_, ?_⟩
      · rw [← hpre, hl, h2]
      · rw [hl]
        exact h3
    have done : ∀ {init : List (List Char)} {c d pre : List Char}, (∀ x ∈ init, '/' ∉ x) → '/' ∉ c →
        (∀ d, '/' :: joinSlash (init ++ [d]) = pre ++ '/' :: d) → p.toList = pre ++ '/' :: c → seen c = some d →
        Segs q (init ++ [d]) → serve routes p.toList = .query q := by
      intro init c d pre h1 h2 h3 h4 h5 h6
      rw [h4, ← h3 c]
      refine (serve_iff _ q).2 ⟨init, c, d, ?_, h5, h6⟩
      refine splitPath_join (by simp) fun x hx => ?_
      rcases List.mem_append.1 hx with hx | hx
      · exact h1 x hx
      · rw [List.mem_singleton.1 hx]
        exact h2
    rintro (⟨ha, hpl⟩ | ⟨a, rfl, ha, hb⟩)
    · obtain ⟨init, d, pre, h1, h2, h3, h4, h5⟩ := key ha
      exact done h1 h2 h3 h4 (seen_iff.2 (.inl ⟨rfl, (plain_iff h4 h2).1 hpl⟩)) h5
    · obtain ⟨init, d, pre, h1, h2, h3, h4, h5⟩ := key ha
      have hd : d ≠ [] := by
        rintro rfl
        exact hb (String.ofList pre) (String.toList_inj.1 (by rw [h4]; simp))
      refine done (c := d ++ [':']) h1 ?_ h3 ?_ (seen_iff.2 (.inr ⟨rfl, hd⟩)) h5
      · intro h
        rcases List.mem_append.1 h with h | h
        · exact h2 h
        · exact absurd (List.mem_singleton.1 h) (by decide)
      · rw [String.toList_append, h4]
        simp

/-- C116: the order in which the routes are registered does not matter. -/
theorem C116_order {rs : List (Pattern × Build)} (h : rs.Perm routes) (p : List Char) : serve rs p = serve routes p := by
  unfold serve
  split
  · split
    · exact firstMatch_perm routes_apart h
    · rfl
  · rfl

/-- A number in decimal is a numeral without slashes, colons and signs. -/
theorem numeral_decimal (n : Nat) : Numeral (toString n) n ∧ Slashless (toString n) ∧ ':' ∉ (toString n).toList ∧
    (toString n).toList.head? ≠ some '+' ∧ (toString n).toList.head? ≠ some '-' := by
  have h := GoInt.parse_toString (n : Int)
  have e : toString (n : Int) = toString n := rfl
  rw [e] at h
  have hd : ∀ c ∈ (toString n).toList, c.isDigit = true := by
    intro c hc
    have : (toString n).toList = Nat.toDigits 10 n := Nat.toList_repr
    rw [this] at hc
    exact Nat.isDigit_of_mem_toDigits (by decide) (by decide) hc
  refine ⟨h, fun hc => ?_, fun hc => ?_, fun hc => ?_, fun hc => ?_⟩
  · exact absurd (hd _ hc) (by decide)
  · exact absurd (hd _ hc) (by decide)
  · exact absurd (hd _ (List.mem_of_head? hc)) (by decide)
  · exact absurd (hd _ (List.mem_of_head? hc)) (by decide)

theorem asks_of_address {q : Query} {a : String} (h : Address q a) : ∃ p, Asks q p := by
  by_cases hb : ∀ b, a ≠ b ++ "/"
  · exact ⟨a ++ ":", .inr ⟨a, rfl, h, hb⟩⟩
  · obtain ⟨b, hb⟩ := not_forall.1 hb
    have hb := not_not.1 hb
    refine ⟨a, .inl ⟨h, fun x e => ?_, fun x y e hy => ?_⟩⟩
    · rw [hb] at e
      have e := congrArg String.toList e
      rw [String.toList_append, String.toList_append] at e
      exact absurd (List.cons.inj (List.append_inj' e rfl).2).1 (by decide)
    · rw [hb] at e
      have e := congrArg String.toList e
      simp only [String.toList_append] at e
      obtain ⟨c, hc⟩ := last_char (a := x.toList ++ ['/']) (x := ':') (d := y.toList) (y := '/') (by decide)
        ⟨b.toList, by rw [show b.toList ++ ['/'] = _ from e]; simp⟩
      refine absurd ?_ hy
      rw [hc]
      simp

/-- C116: the queries that can be asked for are those without slashes in an account or an identifier, of a known provider, and of
a chain of 32 bits. -/
theorem C116_askable (q : Query) : (∃ p, request p = .query q) ↔ HasAddress q := by
  have e : (∃ p, request p = .query q) ↔ ∃ p, Address q p := by
    constructor
    · rintro ⟨p, h⟩
      rcases (C116_reaches p q).1 h with ⟨h, _⟩ | ⟨a, _, h, _⟩
      · exact ⟨p, h⟩
      · exact ⟨a, h⟩
    · rintro ⟨a, h⟩
      obtain ⟨p, h⟩ := asks_of_address h
      exact ⟨p, (C116_reaches p q).2 h⟩
  rw [e]
  have prov : ∀ p : Int, (∃ t, ProviderText t p ∧ Slashless t) ↔ p = 0 ∨ p = 1 := by
    intro p
    constructor
    · rintro ⟨t, ⟨_, h⟩ | ⟨_, h⟩ | ⟨_, h⟩, _⟩
      · exact .inl h
      · exact .inr h
      · exact h
    · rintro (rfl | rfl)
      · exact ⟨"IBC", .inl ⟨rfl, rfl⟩, by unfold Slashless; decide⟩
      · exact ⟨"HYPERLANE", .inr (.inl ⟨rfl, rfl⟩), by unfold Slashless; decide⟩
  cases q <;> simp only [Address, HasAddress]
  case principal | yield | positions | pendingRewardsBy => exact ⟨fun ⟨_, h, _⟩ => h, fun h => ⟨_, h, rfl⟩⟩
  case yieldRecipient | retryAmount =>
    rw [← prov]
    exact ⟨fun ⟨_, t, h1, h2, h3, _⟩ => ⟨⟨t, h1, h2⟩, h3⟩, fun ⟨⟨t, h1, h2⟩, h3⟩ => ⟨_, t, h1, h2, h3, rfl⟩⟩
  case destinationTokens n =>
    obtain ⟨h1, h2, _, h3, h4⟩ := numeral_decimal n
    exact ⟨fun ⟨_, t, h, _⟩ => h.2.1, fun h => ⟨_, toString n, ⟨h1, h, h3, h4⟩, h2, rfl⟩⟩
  all_goals exact ⟨fun _ => trivial, fun _ => ⟨_, rfl⟩⟩

theorem plain_arg {pre arg : String} (hs : Slashless arg) (hc : ':' ∉ arg.toList) : PlainPath (pre ++ "/" ++ arg) := by
  refine (plain_iff (pre := pre.toList) (d := arg.toList) (by simp) hs).2 ⟨fun a e => ?_, fun b e => ?_⟩ <;>
    exact absurd (by rw [e]; simp) hc

/-- C116: the addresses of everyday use. -/
theorem C116_everyday (account : String) (identifier : String) (n : Nat) (ha : Slashless account) (hi : Slashless identifier)
    (ha' : ':' ∉ account.toList) (hi' : ':' ∉ identifier.toList) (hn : n < 2 ^ 32) :
    request ("/noble/dollar/v1/principal" ++ "/" ++ account) = .query (.principal account) ∧
    request ("/noble/dollar/v1/yield" ++ "/" ++ account) = .query (.yield account) ∧
    request ("/noble/dollar/v2/yield_recipient/IBC" ++ "/" ++ identifier) = .query (.yieldRecipient 0 identifier) ∧
    request ("/noble/dollar/v2/yield_recipient/HYPERLANE" ++ "/" ++ identifier) = .query (.yieldRecipient 1 identifier) ∧
    request ("/noble/dollar/v2/retry_amount/IBC" ++ "/" ++ identifier) = .query (.retryAmount 0 identifier) ∧
    request ("/noble/dollar/v2/retry_amount/HYPERLANE" ++ "/" ++ identifier) = .query (.retryAmount 1 identifier) ∧
    request ("/noble/dollar/portal/v1/destination_tokens" ++ "/" ++ toString n) = .query (.destinationTokens n) ∧
    request ("/noble/dollar/vaults/v1/positions" ++ "/" ++ account) = .query (.positions account) ∧
    request ("/noble/dollar/vaults/v1/pending_rewards" ++ "/" ++ account) = .query (.pendingRewardsBy account) := by
  obtain ⟨h1, h2, h2', h3, h4⟩ := numeral_decimal n
  have str : ∀ {a b : String}, a.toList = b.toList → a = b := fun h => String.toList_inj.1 h
  refine ⟨(C116_reaches _ _).2 (.inl ⟨⟨ha, str (by simp)⟩, plain_arg ha ha'⟩),
    (C116_reaches _ _).2 (.inl ⟨⟨ha, str (by simp)⟩, plain_arg ha ha'⟩),
    (C116_reaches _ _).2 (.inl ⟨⟨"IBC", .inl ⟨rfl, rfl⟩, by unfold Slashless; decide, hi, str (by simp)⟩, plain_arg hi hi'⟩),
    (C116_reaches _ _).2 (.inl ⟨⟨"HYPERLANE", .inr (.inl ⟨rfl, rfl⟩), by unfold Slashless; decide, hi, str (by simp)⟩,
      plain_arg hi hi'⟩),
    (C116_reaches _ _).2 (.inl ⟨⟨"IBC", .inl ⟨rfl, rfl⟩, by unfold Slashless; decide, hi, str (by simp)⟩, plain_arg hi hi'⟩),
    (C116_reaches _ _).2 (.inl ⟨⟨"HYPERLANE", .inr (.inl ⟨rfl, rfl⟩), by unfold Slashless; decide, hi, str (by simp)⟩,
      plain_arg hi hi'⟩),
    (C116_reaches _ _).2 (.inl ⟨⟨toString n, ⟨h1, hn, h3, h4⟩, h2, str (by simp)⟩, plain_arg h2 h2'⟩),
    (C116_reaches _ _).2 (.inl ⟨⟨ha, str (by simp)⟩, plain_arg ha ha'⟩),
    (C116_reaches _ _).2 (.inl ⟨⟨ha, str (by simp)⟩, plain_arg ha ha'⟩)⟩

/-- C116: no path asks for the recipient or the retry amount of an identifier with a slash. -/
theorem C116_slash (p : String) (provider : Int) (identifier : String) (h : '/' ∈ identifier.toList) :
    request p ≠ .query (.yieldRecipient provider identifier) ∧ request p ≠ .query (.retryAmount provider identifier) :=
  ⟨fun e => ((C116_askable _).1 ⟨p, e⟩).2 h, fun e => ((C116_askable _).1 ⟨p, e⟩).2 h⟩

/-! ### Paths -/

example : request "/noble/dollar/v1/index" = .query .index ∧ request "/noble/dollar/v1/index:" = .query .index ∧
    request "/noble/dollar/v1/index:x" = .notFound ∧ request "/noble/dollar/v1/index/" = .notFound ∧
    request "noble/dollar/v1/index" = .notFound ∧ request "/noble/dollar/v1" = .notFound := by decide +kernel

example : request "/noble/dollar/v2/yield_recipient/IBC/channel-0" = .query (.yieldRecipient 0 "channel-0") ∧
    request "/noble/dollar/v2/yield_recipient/0x1/a:b" = .query (.yieldRecipient 1 "a:b") ∧
    request "/noble/dollar/v2/yield_recipient/IBC/a:" = .query (.yieldRecipient 0 "a") ∧
    request "/noble/dollar/v2/yield_recipient/IBC/a::" = .query (.yieldRecipient 0 "a:") ∧
    request "/noble/dollar/v2/yield_recipient/IBC/:a" = .notFound ∧
    request "/noble/dollar/v2/yield_recipient/IBC/:a:" = .query (.yieldRecipient 0 ":a") ∧
    request "/noble/dollar/v2/yield_recipient/IBC/a/b" = .notFound ∧
    request "/noble/dollar/v2/yield_recipient/2/a" = .invalid ∧ request "/noble/dollar/v2/yield_recipient/ibc/a" = .invalid := by
  decide +kernel

example : request "/noble/dollar/portal/v1/destination_tokens/010" = .query (.destinationTokens 8) ∧
    request "/noble/dollar/portal/v1/destination_tokens/0x10" = .query (.destinationTokens 16) ∧
    request "/noble/dollar/portal/v1/destination_tokens/1_0" = .query (.destinationTokens 10) ∧
    request "/noble/dollar/portal/v1/destination_tokens/4294967296" = .invalid ∧
    request "/noble/dollar/portal/v1/destination_tokens/-1" = .invalid ∧
    request "/noble/dollar/portal/v1/destination_tokens/+1" = .invalid ∧
    request "/noble/dollar/vaults/v1/pending_rewards" = .query .pendingRewards ∧
    request "/noble/dollar/vaults/v1/pending_rewards/" = .query (.pendingRewardsBy "") := by decide +kernel

/-- An identifier with an address and one without. -/
example : HasAddress (.yieldRecipient 0 "channel-0") ∧ ¬ HasAddress (.yieldRecipient 0 "a/b") := by
  unfold HasAddress Slashless
  decide

end Dollar
