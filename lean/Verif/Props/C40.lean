import Verif.Lemmas.Order
import Verif.Spec.DemoExt
import Verif.Spec.Views

/-
C40: results do not depend on the iteration order of Go maps.  For transactions this holds without
condition.  For the genesis import it holds when different keys of a genesis map denote different
accounts or routes, and fails otherwise (`C40_genesis_collision`).
-/
set_option maxRecDepth 100000
namespace Dollar
open MM Spec

/-- Two runs of a history that differ only in the order in which Go iterates over maps. -/
inductive Spec.SameButOrder : History → History → Prop
  | nil : SameButOrder [] []
  | cons (env : Env) (order : List String → List String) (ho : ∀ l, (order l).Perm l) (m : Msg)
      {h h' : History} (t : SameButOrder h h') :
      SameButOrder ((env, m) :: h)
        (({ env with mapOrder := order, mapOrder_perm := ho }, m) :: h')

/-- A transaction has the same outcome (result, error, panic and state) for every iteration order,
in every state. -/
theorem C40_transaction (c : Cfg) (env : Env) (order : List String → List String)
    (ho : ∀ l, (order l).Perm l) (m : Msg) (s : State) :
    exec c { env with mapOrder := order, mapOrder_perm := ho } m s = exec c env m s :=
  congrFun (exec_reorder c env order ho m) s

/-- Two nodes that execute the same history end in the same state. -/
theorem C40_history (c : Cfg) {h h' : History} (e : SameButOrder h h') (s : State) :
    run c h s = run c h' s := by
  induction e generalizing s with
  | nil => rfl
  | cons env o ho m t ih =>
    show run c _ (step c env m s) = run c _ (step c _ m s)
    rw [ih]
    unfold step runTx
    rw [C40_transaction c env o ho m s]

/-- Non-vacuity: a delivery that distributes yield to two warp routes, with the order reversed. -/
def Demo.histExtDone : History := Demo.histExt ++ [(Demo.env 8, .deliver [3])]

example : run Demo.cfg Demo.histExtDone Demo.start =
    run Demo.cfg (Demo.histExtDone.map fun e => ({ e.1 with
      mapOrder := List.reverse, mapOrder_perm := fun l => List.reverse_perm l }, e.2)) Demo.start := by
  refine C40_history _ ?_ _
  generalize Demo.histExtDone = h
  induction h with
  | nil => exact .nil
  | cons e t ih => exact .cons e.1 _ _ e.2 ih

example : (recipientsBy (run Demo.cfg Demo.histExt Demo.start) HYPERLANE).map Prod.fst = ["A", "B"] ∧
    ((run Demo.cfg Demo.histExtDone Demo.start).warpOut.drop 2).map WarpOut.amount =
      [199999, 99999] := by decide +kernel

/-! ### Genesis import -/

/-- `g'` is `g` with the entries of its maps listed in another order. -/
structure Spec.Reordered (g g' : Genesis) : Prop where
  principal : g.principal.Perm g'.principal
  extYield : g.extYield.Perm g'.extYield
  recipients : g.recipients.Perm g'.recipients
  retry : g.retry.Perm g'.retry
  peers : g.peers.Perm g'.peers
  rest : g' = { g with principal := g'.principal, extYield := g'.extYield,
                       recipients := g'.recipients, retry := g'.retry, peers := g'.peers }

/-- The keys of each map of a genesis state are distinct, as they are in Go. -/
structure Spec.GoMaps (g : Genesis) : Prop where
  principal : (g.principal.map Prod.fst).Nodup
  extYield : (g.extYield.map Prod.fst).Nodup
  recipients : (g.recipients.map Prod.fst).Nodup
  retry : (g.retry.map Prod.fst).Nodup
  peers : (g.peers.map Prod.fst).Nodup

/-- No two keys of one map denote the same account, or the same route. -/
structure Spec.NoCollision (c : Cfg) (g : Genesis) : Prop where
  principal : g.principal.Pairwise fun e e' => ∀ a, c.decode e.1 = some a → c.decode e'.1 ≠ some a
  extYield : g.extYield.Pairwise fun e e' =>
    ∀ k, parseRecipientKey e.1 = .ok k → parseRecipientKey e'.1 ≠ .ok k
  recipients : g.recipients.Pairwise fun e e' =>
    ∀ k, parseRecipientKey e.1 = .ok k → parseRecipientKey e'.1 ≠ .ok k
  retry : g.retry.Pairwise fun e e' =>
    ∀ k, parseRecipientKey e.1 = .ok k → parseRecipientKey e'.1 ≠ .ok k

/-- The full claim: the import does not depend on the order. -/
def Spec.ImportOrderFree : Prop :=
  ∀ (c : Cfg) (g g' : Genesis) (base : State), Shape base → GoMaps g → Reordered g g' →
    initGenesis c g base = initGenesis c g' base

theorem initPrincipal_perm (c : Cfg) {l l' : List (String × String)} (h : l.Perm l')
    (hl : l.Pairwise fun e e' => ∀ a, c.decode e.1 = some a → c.decode e'.1 ≠ some a)
    {m : KV Addr Int} (hm : m.Sorted) :
    foldPanic (initPrincipal c) m l = foldPanic (initPrincipal c) m l' := by
  refine foldPanic_perm (P := fun m => m.Sorted) ?_ ?_ ?_ h hl m hm
  · intro x y hxy a hy hx
    exact hxy a hx hy
  · intro b a b' hb hf
    unfold initPrincipal at hf
    split at hf
    · cases hf; exact KV.sorted_set _ _ hb
    · cases hf
  · intro b x y hb hxy
    unfold initPrincipal
    cases hx : c.decode x.1 <;> cases hx2 : intOfString x.2 <;>
      cases hy : c.decode y.1 <;> cases hy2 : intOfString y.2 <;> simp only [Option.bind_some, Option.bind_none]
    next a p a' p' =>
      rw [set_comm hb]
      rintro rfl
      exact hxy a hx hy

theorem initAmount_perm {l l' : List (String × String)} (h : l.Perm l')
    (hl : l.Pairwise fun e e' => ∀ k, parseRecipientKey e.1 = .ok k → parseRecipientKey e'.1 ≠ .ok k)
    {m : KV (Int × String) Int} (hm : m.Sorted) :
    foldPanic initAmount m l = foldPanic initAmount m l' := by
  refine foldPanic_perm (P := fun m => m.Sorted) ?_ ?_ ?_ h hl m hm
  · intro x y hxy a hy hx
    exact hxy a hx hy
  · intro b a b' hb hf
    unfold initAmount at hf
    split at hf
    · cases hf; exact KV.sorted_set _ _ hb
    · cases hf
  · intro b x y hb hxy
    unfold initAmount
    cases hx : parseRecipientKey x.1 <;> cases hx2 : intOfString x.2 <;>
      cases hy : parseRecipientKey y.1 <;> cases hy2 : intOfString y.2 <;>
      simp only [Option.bind_some, Option.bind_none]
    next a p a' p' =>
      rw [set_comm hb]
      rintro rfl
      exact hxy a hx hy

theorem initRecipient_perm {l l' : List (String × String)} (h : l.Perm l')
    (hl : l.Pairwise fun e e' => ∀ k, parseRecipientKey e.1 = .ok k → parseRecipientKey e'.1 ≠ .ok k)
    {m : KV (Int × String) String} (hm : m.Sorted) :
    foldPanic initRecipient m l = foldPanic initRecipient m l' := by
  refine foldPanic_perm (P := fun m => m.Sorted) ?_ ?_ ?_ h hl m hm
  · intro x y hxy a hy hx
    exact hxy a hx hy
  · intro b a b' hb hf
    unfold initRecipient at hf
    split at hf
    · cases hf; exact KV.sorted_set _ _ hb
    · cases hf
  · intro b x y hb hxy
    unfold initRecipient
    cases hx : parseRecipientKey x.1 <;> 
      cases hy : parseRecipientKey y.1 <;>
      simp only [Option.bind_some, Option.bind_none]
    next a a' =>
      rw [set_comm hb]
      rintro rfl
      exact hxy a hx hy

theorem peers_perm {l l' : List (Nat × Peer)} (h : l.Perm l') (hl : (l.map Prod.fst).Nodup)
    {m : KV Nat Peer} (hm : m.Sorted) :
    l.foldl (fun m e => m.set e.1 e.2) m = l'.foldl (fun m e => m.set e.1 e.2) m := by
  refine Option.some.inj ?_
  rw [← foldl_eq_foldPanic, ← foldl_eq_foldPanic]
  refine foldPanic_perm (P := fun m => m.Sorted) (R := fun e e' => e.1 ≠ e'.1) ?_ ?_ ?_ h
    (List.pairwise_map.1 hl) m hm
  · intro x y hxy; exact Ne.symm hxy
  · intro b a b' hb hf
    cases hf; exact KV.sorted_set _ _ hb
  · intro b x y hb hxy
    simp only [Option.bind_some]
    rw [set_comm hb hxy]

/-- The import does not depend on the order in which the maps are iterated, provided that
different keys denote different accounts and routes.  (What is missing from the full claim: keys
that collide, see `C40_genesis_collision`.) -/
theorem C40_genesis_partial (c : Cfg) (g g' : Genesis) (base : State) (hb : Shape base)
    (hg : GoMaps g) (hn : NoCollision c g) (h : Reordered g g') :
    initGenesis c g base = initGenesis c g' base := by
  obtain ⟨h1, h2, h3, h4, h5, h6⟩ := h
  generalize g'.principal = p, g'.extYield = x, g'.recipients = r, g'.retry = t, g'.peers = q at *
  subst h6
  unfold initGenesis
  rw [initPrincipal_perm c h1 hn.principal hb.principal,
    initAmount_perm h2 hn.extYield hb.extYield,
    initRecipient_perm h3 hn.recipients hb.recipients,
    initAmount_perm h4 hn.retry hb.retry,
    peers_perm h5 hg.peers hb.peers]

theorem Demo.start_shape : Shape Demo.start :=
  Reachable.shape (.fresh Demo.start_initial)

/-- A genesis file with two names for one route: an unknown provider name is read as IBC. -/
def Spec.collide : Genesis :=
  { defaultGenesis with collector := Demo.aliceS, recipients := [("IBC/channel-0", "x"), ("FOO/channel-0", "y")] }

/-- The full claim is false: two nodes that import the same genesis file can end in different
states. -/
theorem C40_genesis_collision : ¬ ImportOrderFree := by
  intro h
  have h1 : (initGenesis Demo.cfg collide Demo.start).map State.recipients ≠
      (initGenesis Demo.cfg { collide with recipients := collide.recipients.reverse }
        Demo.start).map State.recipients := by decide +kernel
  refine h1 (congrArg _ (h _ _ _ _ ?_ ?_ ?_))
  · exact Demo.start_shape
  · constructor <;> decide +kernel
  · constructor
    · exact List.Perm.refl _
    · exact List.Perm.refl _
    · exact (List.reverse_perm _).symm
    · exact List.Perm.refl _
    · exact List.Perm.refl _
    · rfl

/-- Non-vacuity: a genesis file with two accounts, two routes and two peers, in two orders. -/
def Demo.gen : Genesis :=
  { defaultGenesis with
    collector := Demo.aliceS, principal := [(Demo.aliceS, "5"), (Demo.bobS, "7")],
    recipients := [("IBC/channel-0", "x"), ("HYPERLANE/A", "y")],
    peers := [(1, ⟨[1], [2]⟩), (2, ⟨[3], [4]⟩)] }

/-- The same file, iterated from the back. -/
def Demo.genRev : Genesis :=
  { Demo.gen with
    principal := Demo.gen.principal.reverse, recipients := Demo.gen.recipients.reverse,
    peers := Demo.gen.peers.reverse }

theorem Demo.gen_maps : GoMaps Demo.gen := by constructor <;> decide +kernel

theorem Demo.gen_noCollision : NoCollision Demo.cfg Demo.gen := by
  constructor
  · refine List.pairwise_pair.2 fun a h h' => ?_
    have e : ¬ Demo.cfg.decode Demo.aliceS = Demo.cfg.decode Demo.bobS := by decide +kernel
    exact e (h.trans h'.symm)
  · exact List.Pairwise.nil
  · refine List.pairwise_pair.2 fun a h h' => ?_
    have e : ¬ parseRecipientKey "IBC/channel-0" = parseRecipientKey "HYPERLANE/A" := by decide +kernel
    exact e (h.trans h'.symm)
  · exact List.Pairwise.nil

theorem Demo.gen_reordered : Reordered Demo.gen Demo.genRev where
  principal := (List.reverse_perm _).symm
  extYield := List.Perm.refl _
  recipients := (List.reverse_perm _).symm
  retry := List.Perm.refl _
  peers := (List.reverse_perm _).symm
  rest := rfl

example : initGenesis Demo.cfg Demo.gen Demo.start = initGenesis Demo.cfg Demo.genRev Demo.start :=
  C40_genesis_partial _ _ _ _ Demo.start_shape Demo.gen_maps Demo.gen_noCollision Demo.gen_reordered

example : (initGenesis Demo.cfg { Demo.gen with principal := [] } Demo.start).map State.recipients =
    some [((0, "channel-0"), "x"), ((1, "A"), "y")] := by decide +kernel

end Dollar
