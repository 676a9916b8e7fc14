import Verif.Props.C79

/-
C45, on the bytes of the store: what the migration of version 1 to version 2 does to every entry.
-/
namespace Dollar
open Proto Spec

/-- C45: the migration carries the statistics over from any store of version 1: afterwards version 2 reads the numbers
version 1 had written, and every other entry has the bytes it had. -/
theorem C45_bytes (T : IntText) (d : Disk) (holders : Nat) (principal yield : Int) (h1 : holders < 2 ^ 64)
    (h2 : principal.natAbs < 2 ^ 256) (h3 : yield.natAbs < 2 ^ 256)
    (hd : d.get? SKey.stats.bytes = some (encStatsV1 holders principal yield)) :
    ∃ d', migrateDisk T d = .ok d' ∧
      d'.item .stats (decStats T) = .ok (holders, principal, yield) ∧
      ∀ k, k ≠ SKey.stats.bytes → d'.get? k = d.get? k := by
  have e : decStatsV1 T (encStatsV1 holders principal yield) = .ok (holders, principal, yield) :=
    C73_stats T holders principal yield h1 h2 h3
  have ei : d.item .stats (decStatsV1 T) = .ok (holders, principal, yield) := by
    unfold Disk.item; rw [hd]; exact e
  refine ⟨d.set SKey.stats.bytes (encStats holders principal yield), ?_, ?_, ?_⟩
  · unfold migrateDisk; rw [ei]; rfl
  · unfold Disk.item
    rw [KV.get?_set_self]
    exact C73_stats T holders principal yield h1 h2 h3
  · intro k hk
    exact KV.get?_set_ne _ _ hk

/-- C45: without stored statistics, or with bytes that are no statistics, the migration is refused. -/
theorem C45_bytes_refused (T : IntText) (d : Disk)
    (hd : ∀ b, d.get? SKey.stats.bytes = some b → decStatsV1 T b = .err) : migrateDisk T d = .err := by
  unfold migrateDisk
  have : d.item .stats (decStatsV1 T) = .err := by
    unfold Disk.item
    cases h : d.get? SKey.stats.bytes with
    | none => rfl
    | some b => exact hd b h
  rw [this]; rfl

theorem decStatsV1_encStats (T : IntText) (h : Nat) (p y : Int) (h1 : h < 2 ^ 64) (h2 : p.natAbs < 2 ^ 256)
    (h3 : y.natAbs < 2 ^ 256) : decStatsV1 T (encStats h p y) = .ok (h, p, y) :=
  C73_stats T h p y h1 h2 h3

theorem migrateDisk_same (T : IntText) {d : Disk} (hs : d.Sorted) {h : Nat} {p y : Int} (h1 : h < 2 ^ 64)
    (h2 : p.natAbs < 2 ^ 256) (h3 : y.natAbs < 2 ^ 256)
    (hd : d.get? SKey.stats.bytes = some (encStats h p y)) : migrateDisk T d = .ok d := by
  unfold migrateDisk Disk.item
  rw [hd]
  show (decStatsV1 T (encStats h p y) >>= _) = _
  rw [decStatsV1_encStats T h p y h1 h2 h3, PRes.ok_bind]
  refine congrArg PRes.ok (KV.ext_of_sorted (KV.sorted_set _ _ hs) hs fun k => ?_)
  by_cases hk : k = SKey.stats.bytes
  · subst hk; rw [KV.get?_set_self]; exact hd.symm
  · rw [KV.get?_set_ne _ _ hk]

theorem disk_stats {s : State} (hf : Fits s) (hs : Shape s) (nanos : PosKey → Int) :
    (disk nanos s).get? SKey.stats.bytes = some (encStats s.holders s.totalPrincipal s.totalYield) :=
  (KV.mem_iff_get? (disk_sorted nanos s)).1 ((mem_disk hf hs nanos).2
    ⟨.stats, by simp [stored], rfl⟩)

/-- C45: on the store of any state the chain can be in, the migration finds what it needs and leaves every byte as it
was, so a node that is upgraded and restarted has the state it had. -/
theorem C45_store (T : IntText) (c : Cfg) (s rest : State) (hr : Reachable c s) (hf : Fits s)
    (nanos : PosKey → Int) (hn : ∀ k, 0 ≤ nanos k ∧ nanos k < 1000000000) (he : SameElsewhere rest s) :
    migrateDisk T (disk nanos s) = .ok (disk nanos s) ∧ restart T rest (disk nanos s) = .ok s :=
  ⟨migrateDisk_same T (disk_sorted nanos s) hf.holders hf.totalPrincipal hf.totalYield
    (disk_stats hf hr.shape nanos), C79_restart T c s rest hr hf nanos hn he⟩

/-! Examples: the store of a state with positions, recipients and statistics; statistics of version 1 beside another
entry; a store without statistics. -/

example : migrateDisk decimal (disk (fun _ => 999999999) (run Demo.cfg Demo.histFull Demo.start)) =
    .ok (disk (fun _ => 999999999) (run Demo.cfg Demo.histFull Demo.start)) :=
  (C45_store decimal Demo.cfg _ _ Demo.reachFull Demo.fitsFull _ (fun _ => ⟨by decide, by decide⟩)
    (Demo.lost_same _)).1

/-- Statistics of version 1 and one other entry. -/
def Demo.diskV1 : Disk := KV.set (KV.set [] SKey.stats.bytes (encStatsV1 3 15000000 77)) SKey.index.bytes [1, 2]

example : ∃ d', migrateDisk decimal Demo.diskV1 = .ok d' ∧
    d'.item .stats (decStats decimal) = .ok (3, 15000000, 77) ∧
    ∀ k, k ≠ SKey.stats.bytes → d'.get? k = Demo.diskV1.get? k :=
  C45_bytes decimal _ 3 15000000 77 (by decide) (by decide) (by decide) (by decide +kernel)

example : migrateDisk decimal [] = .err := C45_bytes_refused decimal [] (fun _ h => by cases h)

end Dollar
