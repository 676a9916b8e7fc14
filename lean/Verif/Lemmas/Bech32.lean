import Verif.Model.Bech32
import Mathlib.Data.Nat.Bitwise
import Mathlib.Data.List.Basic

/-
Bech32: the checksum is linear over GF(2), regrouping bits can be undone, and a text decodes exactly if it is one of the
two spellings of an encoded address.
-/
set_option maxRecDepth 100000
namespace Dollar.Bech32

/-! ### The checksum is linear -/

theorem feedback_xor (a b : Nat) (l : List Nat) (i : Nat) :
    feedback (a ^^^ b) l i = feedback a l i ^^^ feedback b l i := by
  induction l generalizing i with
  | nil => exact (Nat.xor_self 0).symm
  | cons g t ih =>
    unfold feedback
    rw [ih, Nat.testBit_xor]
    cases a.testBit i <;> cases b.testBit i <;> simp [Nat.xor_assoc, Nat.xor_left_comm]

theorem feedback_zero (l : List Nat) (i : Nat) : feedback 0 l i = 0 := by
  induction l generalizing i with
  | nil => rfl
  | cons g t ih =>
    unfold feedback
    rw [ih, Nat.zero_testBit]
    exact Nat.xor_self 0

theorem polyStep_xor (c e u v : Nat) : polyStep (c ^^^ e) (u ^^^ v) = polyStep c u ^^^ polyStep e v := by
  unfold polyStep
  have h1 : (c ^^^ e) / 2 ^ 25 = c / 2 ^ 25 ^^^ e / 2 ^ 25 := Nat.xor_div_two_pow
  have h2 : (c ^^^ e) % 2 ^ 25 = c % 2 ^ 25 ^^^ e % 2 ^ 25 := Nat.xor_mod_two_pow
  have h3 : ∀ x y : Nat, (x ^^^ y) * 32 = x * 32 ^^^ y * 32 := fun x y => by
    have := Nat.shiftLeft_xor_distrib (a := x) (b := y) (i := 5)
    simpa [Nat.shiftLeft_eq] using this
  rw [h1, feedback_xor, h2, h3]
  simp only [Nat.xor_assoc, Nat.xor_left_comm, Nat.xor_comm]

/-- The state after a list of values is that of the start and that of the values, added. -/
theorem foldl_xor (c e : Nat) (l m : List Nat) (h : l.length = m.length) :
    (List.zipWith (· ^^^ ·) l m).foldl polyStep (c ^^^ e) = l.foldl polyStep c ^^^ m.foldl polyStep e := by
  induction l generalizing c e m with
  | nil =>
    cases m with
    | nil => rfl
    | cons a t => cases h
  | cons x t ih =>
    cases m with
    | nil => cases h
    | cons y r =>
      simp only [List.zipWith_cons_cons, List.foldl_cons]
      rw [polyStep_xor]
      exact ih _ _ _ (Nat.succ.inj h)

theorem polyStep_small {e d : Nat} (h : e < 2 ^ 25) (hd : d < 32) : polyStep e d = e * 32 + d := by
  unfold polyStep
  rw [Nat.div_eq_of_lt h, feedback_zero, Nat.mod_eq_of_lt h, Nat.xor_zero]
  have := Nat.two_pow_add_eq_or_of_lt (i := 5) (b := d) hd e
  have h2 : (32 * e) ^^^ d = 32 * e + d := by
    have h3 : (2 ^ 5 * e) &&& d = 0 := by
      apply Nat.eq_of_testBit_eq
      intro i
      rw [Nat.testBit_and, Nat.testBit_two_pow_mul, Nat.zero_testBit]
      by_cases hi : 5 ≤ i
      · rw [Nat.testBit_lt_two_pow (x := d) (i := i) (lt_of_lt_of_le hd (by
          have := Nat.pow_le_pow_right (n := 2) (by omega) hi
          omega)), Bool.and_false]
      · simp [hi]
    have h4 : (2 ^ 5 * e) ^^^ d = (2 ^ 5 * e) ||| d := by
      apply Nat.eq_of_testBit_eq
      intro i
      have h5 := congrArg (fun n => n.testBit i) h3
      simp only [Nat.testBit_and, Nat.zero_testBit] at h5
      rw [Nat.testBit_xor, Nat.testBit_or]
      generalize (2 ^ 5 * e).testBit i = p, d.testBit i = q at h5 ⊢
      revert h5
      revert p q
      decide
    rw [show (32 : Nat) = 2 ^ 5 from rfl, h4, ← this]
  rw [Nat.mul_comm, h2]

/-- The number that groups of five bits stand for. -/
def pack (l : List Nat) : Nat := l.foldl (fun n d => n * 32 + d) 0

theorem foldl_pack {l : List Nat} {e k : Nat} (he : e < 32 ^ k) (hl : ∀ d ∈ l, d < 32) (hk : k + l.length ≤ 6) :
    l.foldl polyStep e = l.foldl (fun n d => n * 32 + d) e := by
  induction l generalizing e k with
  | nil => rfl
  | cons d t ih =>
    simp only [List.length_cons] at hk
    have hd := hl d List.mem_cons_self
    have he' : e < 2 ^ 25 := lt_of_lt_of_le he (by
      have := Nat.pow_le_pow_right (n := 32) (by omega) (show k ≤ 5 by omega)
      omega)
    rw [List.foldl_cons, List.foldl_cons, polyStep_small he' hd]
    refine ih (k := k + 1) ?_ (fun x hx => hl x (List.mem_cons_of_mem _ hx)) (by omega)
    rw [Nat.pow_succ]
    omega

theorem zipWith_zero_left (l : List Nat) : List.zipWith (· ^^^ ·) (List.replicate l.length 0) l = l := by
  induction l with
  | nil => rfl
  | cons a t ih =>
    rw [List.length_cons, List.replicate_succ, List.zipWith_cons_cons, ih, Nat.zero_xor]

theorem zipWith_zero_right (l : List Nat) : List.zipWith (· ^^^ ·) l (List.replicate l.length 0) = l := by
  induction l with
  | nil => rfl
  | cons a t ih =>
    rw [List.length_cons, List.replicate_succ, List.zipWith_cons_cons, ih, Nat.xor_zero]

/-- Six values after any others. -/
theorem foldl_six (c : Nat) {k : List Nat} (hk : k.length = 6) (h : ∀ d ∈ k, d < 32) :
    k.foldl polyStep c = [0, 0, 0, 0, 0, 0].foldl polyStep c ^^^ pack k := by
  have h1 := foldl_xor c 0 [0, 0, 0, 0, 0, 0] k hk.symm
  rw [Nat.xor_zero] at h1
  have h2 : List.zipWith (· ^^^ ·) [0, 0, 0, 0, 0, 0] k = k := by
    have := zipWith_zero_left k
    rw [hk] at this
    exact this
  rw [h2] at h1
  rw [h1, foldl_pack (k := 0) (e := 0) (by decide) h (by omega)]
  rfl

theorem pack_sixGroups {n : Nat} (h : n < 2 ^ 30) : pack (sixGroups n) = n := by
  unfold pack sixGroups
  simp only [List.foldl_cons, List.foldl_nil]
  omega

theorem sixGroups_pack {k : List Nat} (hk : k.length = 6) (h : ∀ d ∈ k, d < 32) : sixGroups (pack k) = k := by
  match k, hk with
  | [a, b, c, d, e, f], _ =>
    simp only [List.forall_mem_cons] at h
    obtain ⟨h1, h2, h3, h4, h5, h6, _⟩ := h
    unfold pack sixGroups
    simp only [List.foldl_cons, List.foldl_nil]
    congr 1
    · omega
    congr 1
    · omega
    congr 1
    · omega
    congr 1
    · omega
    congr 1
    · omega
    congr 1
    omega

theorem sixGroups_lt (n : Nat) : ∀ d ∈ sixGroups n, d < 32 := by
  intro d hd
  unfold sixGroups at hd
  simp only [List.mem_cons, List.not_mem_nil, or_false] at hd
  rcases hd with rfl | rfl | rfl | rfl | rfl | rfl <;> omega

theorem feedback_lt (b : Nat) {l : List Nat} (h : ∀ g ∈ l, g < 2 ^ 30) (i : Nat) : feedback b l i < 2 ^ 30 := by
  induction l generalizing i with
  | nil => exact Nat.two_pow_pos 30
  | cons g t ih =>
    unfold feedback
    refine Nat.xor_lt_two_pow ?_ (ih (fun x hx => h x (List.mem_cons_of_mem _ hx)) _)
    split
    · exact h g List.mem_cons_self
    · exact Nat.two_pow_pos 30

theorem polyStep_lt {c v : Nat} (hv : v < 2 ^ 30) : polyStep c v < 2 ^ 30 := by
  unfold polyStep
  refine Nat.xor_lt_two_pow (Nat.xor_lt_two_pow ?_ hv) (feedback_lt _ (by decide) _)
  omega

theorem foldl_lt {c : Nat} {l : List Nat} (hc : c < 2 ^ 30) (h : ∀ v ∈ l, v < 2 ^ 30) : l.foldl polyStep c < 2 ^ 30 := by
  induction l generalizing c with
  | nil => exact hc
  | cons v t ih =>
    exact ih (polyStep_lt (h v List.mem_cons_self)) fun x hx => h x (List.mem_cons_of_mem _ hx)

theorem last_six {c : Nat} : [0, 0, 0, 0, 0, 0].foldl polyStep c < 2 ^ 30 := by
  show polyStep _ 0 < _
  exact polyStep_lt (Nat.two_pow_pos 30)

/-- The checksum is the only one that is accepted. -/
theorem verified_iff (hrp : List Char) (data k : List Nat) (hk : k.length = 6) (h : ∀ d ∈ k, d < 32) :
    verified hrp (data ++ k) = true ↔ k = checksum hrp data := by
  unfold verified checksum polymod
  rw [← List.append_assoc, List.foldl_append, List.foldl_append (l' := [0, 0, 0, 0, 0, 0]), foldl_six _ hk h,
    decide_eq_true_iff]
  generalize hP : [0, 0, 0, 0, 0, 0].foldl polyStep ((hrpExpand hrp ++ data).foldl polyStep 1) = P
  have hlt : P < 2 ^ 30 := hP ▸ last_six
  constructor
  · intro e
    have : pack k = P ^^^ 1 := by
      rw [← e, ← Nat.xor_assoc, Nat.xor_self, Nat.zero_xor]
    rw [← this, sixGroups_pack hk h]
  · intro e
    rw [e, pack_sixGroups (Nat.xor_lt_two_pow hlt (by decide)), ← Nat.xor_assoc, Nat.xor_self, Nat.zero_xor]

theorem polyStep_zero {e : Nat} (h : e < 2 ^ 30) (h0 : polyStep e 0 = 0) : e = 0 := by
  unfold polyStep at h0
  rw [Nat.xor_zero, Nat.xor_eq_zero_iff] at h0
  have hb : e / 2 ^ 25 < 32 := by omega
  have key : ∀ b, b < 32 → feedback b gen 0 % 32 = 0 → b = 0 := by decide
  have := key _ hb (by omega)
  rw [this, feedback_zero] at h0
  omega

theorem foldl_zeros {e : Nat} (h : e < 2 ^ 30) (n : Nat) (h0 : (List.replicate n 0).foldl polyStep e = 0) : e = 0 := by
  induction n generalizing e with
  | zero => exact h0
  | succ n ih =>
    rw [List.replicate_succ, List.foldl_cons] at h0
    exact polyStep_zero h (ih (polyStep_lt (Nat.two_pow_pos 30)) h0)

theorem pack_zero {l : List Nat} {e : Nat} (h : l.foldl (fun n d => n * 32 + d) e = 0) : e = 0 ∧ ∀ d ∈ l, d = 0 := by
  induction l generalizing e with
  | nil => exact ⟨h, fun _ hd => (nomatch hd)⟩
  | cons a t ih =>
    rw [List.foldl_cons] at h
    obtain ⟨h1, h2⟩ := ih h
    refine ⟨by omega, fun d hd => ?_⟩
    rcases List.mem_cons.1 hd with rfl | hd
    · omega
    · exact h2 d hd

/-- Two lists of values with the same checksum that differ in at most six neighbouring places are equal. -/
theorem burst {c : Nat} {l w w' r : List Nat} (hw : w.length = w'.length) (h6 : w.length ≤ 6)
    (h1 : ∀ d ∈ w, d < 32) (h2 : ∀ d ∈ w', d < 32)
    (h : (l ++ w ++ r).foldl polyStep c = (l ++ w' ++ r).foldl polyStep c) : w = w' := by
  simp only [List.foldl_append] at h
  generalize l.foldl polyStep c = s at h
  have e1 : (List.zipWith (· ^^^ ·) w w').foldl polyStep 0 = w.foldl polyStep s ^^^ w'.foldl polyStep s := by
    have := foldl_xor s s w w' hw
    rwa [Nat.xor_self] at this
  have e2 := foldl_xor (w.foldl polyStep s) (w'.foldl polyStep s) r r rfl
  rw [h, Nat.xor_self, ← e1] at e2
  have e3 : List.zipWith (· ^^^ ·) r r = List.replicate r.length 0 := by
    clear * -
    induction r with
    | nil => rfl
    | cons a t ih => rw [List.zipWith_cons_cons, ih, Nat.xor_self]; rfl
  rw [e3] at e2
  have hlt : ∀ d ∈ List.zipWith (· ^^^ ·) w w', d < 32 := by
    intro d hd
    obtain ⟨i, hi, rfl⟩ := List.mem_iff_getElem.1 hd
    rw [List.getElem_zipWith]
    exact Nat.xor_lt_two_pow (n := 5) (h1 _ (List.getElem_mem _)) (h2 _ (List.getElem_mem _))
  have e4 := foldl_zeros (foldl_lt (by decide) fun v hv => lt_trans (hlt v hv) (by decide)) _ e2
  rw [foldl_pack (k := 0) (by decide) hlt (by rw [List.length_zipWith]; omega)] at e4
  have e5 := (pack_zero e4).2
  refine List.ext_getElem hw fun i hi hi' => ?_
  have := e5 _ (List.getElem_mem (l := List.zipWith (· ^^^ ·) w w') (n := i) (by rw [List.length_zipWith]; omega))
  rw [List.getElem_zipWith] at this
  exact Nat.xor_eq_zero_iff.1 this

/-! ### Bits and groups of bits -/

theorem bits_length (k n : Nat) : (bits k n).length = k := by
  induction k generalizing n with
  | zero => rfl
  | succ k ih => unfold bits; rw [List.length_append, ih]; rfl

theorem ofBits_append (l : List Bool) (b : Bool) : ofBits (l ++ [b]) = 2 * ofBits l + (if b then 1 else 0) := by
  unfold ofBits
  rw [List.foldl_append]
  rfl

theorem ofBits_bits (k n : Nat) : ofBits (bits k n) = n % 2 ^ k := by
  induction k generalizing n with
  | zero => rw [Nat.pow_zero, Nat.mod_one]; rfl
  | succ k ih =>
    unfold bits
    rw [ofBits_append, ih, Nat.pow_succ, Nat.mul_comm (2 ^ k) 2, Nat.mod_mul]
    by_cases h : n % 2 = 1
    · rw [h]; simp only [decide_true, if_true]; omega
    · have : n % 2 = 0 := by omega
      rw [this]
      simp

theorem bits_ofBits {l : List Bool} {k : Nat} (h : l.length = k) : bits k (ofBits l) = l := by
  induction k generalizing l with
  | zero => rw [List.length_eq_zero_iff.1 h]; rfl
  | succ k ih =>
    have hne : l ≠ [] := by intro e; rw [e] at h; cases h
    obtain ⟨t, b, rfl⟩ : ∃ t b, l = t ++ [b] := ⟨l.dropLast, l.getLast hne, (List.dropLast_append_getLast hne).symm⟩
    rw [List.length_append, List.length_singleton] at h
    unfold bits
    rw [ofBits_append]
    have h1 : (2 * ofBits t + if b then 1 else 0) / 2 = ofBits t := by cases b <;> simp <;> omega
    have h2 : decide ((2 * ofBits t + if b then 1 else 0) % 2 = 1) = b := by
      cases b
      · simp
      · simp
    rw [h1, h2, ih (by omega)]

theorem ofBits_lt {l : List Bool} {k : Nat} (h : l.length = k) : ofBits l < 2 ^ k := by
  have := ofBits_bits k (ofBits l)
  rw [bits_ofBits h] at this
  rw [this]
  exact Nat.mod_lt _ (Nat.two_pow_pos k)

theorem groups_eq {k : Nat} (hk : 0 < k) (gs : List (List Bool)) (r : List Bool) (hg : ∀ g ∈ gs, g.length = k)
    (hr : r.length < k) (n : Nat) (hn : gs.length ≤ n) : groups k n (gs.flatten ++ r) = (gs, r) := by
  induction gs generalizing n with
  | nil =>
    rw [List.flatten_nil, List.nil_append]
    cases n with
    | zero => rfl
    | succ n => unfold groups; rw [if_neg (by omega)]
  | cons g t ih =>
    cases n with
    | zero => cases hn
    | succ n =>
      have hgl := hg g List.mem_cons_self
      rw [List.flatten_cons, List.append_assoc]
      unfold groups
      rw [if_pos (by rw [List.length_append]; omega), List.take_left' hgl, List.drop_left' hgl,
        ih (fun x hx => hg x (List.mem_cons_of_mem _ hx)) n (Nat.le_of_succ_le_succ hn)]

theorem groups_spec {k : Nat} (hk : 0 < k) (n : Nat) (l : List Bool) (h : l.length ≤ n) :
    ∃ gs r, groups k n l = (gs, r) ∧ l = gs.flatten ++ r ∧ (∀ g ∈ gs, g.length = k) ∧ r.length < k := by
  induction n generalizing l with
  | zero =>
    have : l = [] := List.length_eq_zero_iff.1 (by omega)
    subst this
    exact ⟨[], [], rfl, rfl, fun _ hg => (nomatch hg), hk⟩
  | succ n ih =>
    unfold groups
    split
    · rename_i hkl
      obtain ⟨gs, r, h1, h2, h3, h4⟩ := ih (l.drop k) (by rw [List.length_drop]; omega)
      refine ⟨l.take k :: gs, r, by rw [h1], ?_, ?_, h4⟩
      · rw [List.flatten_cons, List.append_assoc, ← h2, List.take_append_drop]
      · intro g hg
        rcases List.mem_cons.1 hg with rfl | hg
        · rw [List.length_take]; omega
        · exact h3 g hg
    · exact ⟨[], l, rfl, rfl, fun _ hg => (nomatch hg), by omega⟩

theorem flatten_le {k : Nat} (hk : 0 < k) {gs : List (List Bool)} (hg : ∀ g ∈ gs, g.length = k) :
    gs.length ≤ gs.flatten.length := by
  induction gs with
  | nil => exact Nat.zero_le _
  | cons g t ih =>
    rw [List.flatten_cons, List.length_append, List.length_cons, hg g List.mem_cons_self]
    have := ih fun x hx => hg x (List.mem_cons_of_mem _ hx)
    omega

theorem groups_len {k : Nat} (hk : 0 < k) (gs : List (List Bool)) (r : List Bool) (hg : ∀ g ∈ gs, g.length = k)
    (hr : r.length < k) : groups k (gs.flatten ++ r).length (gs.flatten ++ r) = (gs, r) := by
  refine groups_eq hk gs r hg hr _ ?_
  rw [List.length_append]
  have := flatten_le hk hg
  omega

theorem bits8 (b : Bytes) : (b.flatMap fun x => bits 8 x.toNat) = (b.map fun x => bits 8 x.toNat).flatten :=
  List.flatMap_def

/-- Regrouping bytes and back. -/
theorem to8_to5 (b : Bytes) : to8 (to5 b) = some b := by
  unfold to5
  obtain ⟨gs, r, h1, h2, h3, h4⟩ := groups_spec (k := 5) (by decide) _ (b.flatMap fun x => bits 8 x.toNat) le_rfl
  simp only [h1]
  have hz : ∃ z, z ≤ 4 ∧
      (gs.map ofBits ++ (if r = [] then [] else [ofBits (r ++ List.replicate (5 - r.length) false)])).flatMap (bits 5) =
        (b.map fun x => bits 8 x.toNat).flatten ++ List.replicate z false := by
    have hgs : (gs.map ofBits).flatMap (bits 5) = gs.flatten := by
      rw [List.flatMap_def, List.map_map]
      congr 1
      conv_rhs => rw [← List.map_id gs]
      exact List.map_congr_left fun g hg => bits_ofBits (h3 g hg)
    rw [List.flatMap_append, hgs, ← bits8, h2]
    by_cases hr : r = []
    · refine ⟨0, by omega, ?_⟩
      rw [if_pos hr, hr, List.flatMap_nil]
      exact (List.append_nil _).symm
    · refine ⟨5 - r.length, ?_, ?_⟩
      · have := List.length_pos_iff.2 hr
        omega
      · rw [if_neg hr, List.flatMap_cons, List.flatMap_nil, List.append_nil, bits_ofBits, List.append_assoc]
        rw [List.length_append, List.length_replicate]
        omega
  obtain ⟨z, hz4, hz⟩ := hz
  unfold to8
  simp only [hz]
  rw [groups_len (by decide) _ _ _ (by rw [List.length_replicate]; omega)]
  · have hn : ¬ (4 < (List.replicate z false).length ∨ (List.replicate z false).any id = true) := by
      rw [List.length_replicate, List.any_replicate]
      rintro (h | h)
      · omega
      · split at h <;> cases h
    rw [if_neg hn, List.map_map]
    congr 1
    conv_rhs => rw [← List.map_id b]
    refine List.map_congr_left fun x _ => ?_
    show UInt8.ofNat (ofBits (bits 8 x.toNat)) = x
    rw [ofBits_bits, Nat.mod_eq_of_lt x.toNat_lt]
    exact UInt8.ofNat_toNat
  · intro g hg
    obtain ⟨x, _, rfl⟩ := List.mem_map.1 hg
    exact bits_length 8 _

theorem to5_lt (b : Bytes) : ∀ d ∈ to5 b, d < 32 := by
  unfold to5
  obtain ⟨gs, r, h1, h2, h3, h4⟩ := groups_spec (k := 5) (by decide) _ (b.flatMap fun x => bits 8 x.toNat) le_rfl
  simp only [h1]
  intro d hd
  rcases List.mem_append.1 hd with hd | hd
  · obtain ⟨g, hg, rfl⟩ := List.mem_map.1 hd
    exact ofBits_lt (h3 g hg)
  · split at hd
    · cases hd
    · rw [List.mem_singleton.1 hd]
      refine ofBits_lt (k := 5) ?_
      rw [List.length_append, List.length_replicate]
      omega

/-- Groups that can be regrouped into bytes are the groups of these bytes. -/
theorem to5_to8 {d : List Nat} {b : Bytes} (hd : ∀ x ∈ d, x < 32) (h : to8 d = some b) : to5 b = d := by
  unfold to8 at h
  obtain ⟨gs, r, h1, h2, h3, h4⟩ := groups_spec (k := 8) (by decide) _ (d.flatMap (bits 5)) le_rfl
  simp only [h1] at h
  split at h
  · cases h
  rename_i hr
  cases h
  rw [not_or] at hr
  obtain ⟨hr4, hr0⟩ := hr
  have hr0' : r = List.replicate r.length false := by
    refine List.eq_replicate_of_mem fun x hx => ?_
    cases x with
    | false => rfl
    | true => exact absurd (List.any_eq_true.2 ⟨true, hx, rfl⟩) hr0
  have hM : ((gs.map fun x => UInt8.ofNat (ofBits x)).flatMap fun x => bits 8 x.toNat) = gs.flatten := by
    rw [List.flatMap_def, List.map_map]
    congr 1
    conv_rhs => rw [← List.map_id gs]
    refine List.map_congr_left fun g hg => ?_
    show bits 8 (UInt8.ofNat (ofBits g)).toNat = g
    rw [UInt8.toNat_ofNat', Nat.mod_eq_of_lt (ofBits_lt (h3 g hg))]
    exact bits_ofBits (h3 g hg)
  unfold to5
  simp only [hM]
  rw [List.flatMap_def] at h2
  have hb : ∀ l : List Nat, (∀ x ∈ l, x < 32) → (l.map (bits 5)).map ofBits = l := fun l hl => by
    rw [List.map_map]
    conv_rhs => rw [← List.map_id l]
    refine List.map_congr_left fun x hx => ?_
    show ofBits (bits 5 x) = x
    rw [ofBits_bits]
    exact Nat.mod_eq_of_lt (hl x hx)
  have h5 : ∀ l : List Nat, ∀ g ∈ l.map (bits 5), g.length = 5 := fun l g hg => by
    obtain ⟨x, _, rfl⟩ := List.mem_map.1 hg
    exact bits_length 5 x
  rcases List.eq_nil_or_concat r with e | ⟨r', x, e⟩
  · rw [e, List.append_nil] at h2
    have := groups_len (k := 5) (by decide) (d.map (bits 5)) [] (h5 d) (by decide)
    rw [List.append_nil] at this
    rw [← h2, this]
    simp only [if_true, List.append_nil]
    exact hb d hd
  · have hrl : 0 < r.length := by rw [e]; simp
    rcases List.eq_nil_or_concat d with e' | ⟨d', y, e'⟩
    · rw [e'] at h2
      have := congrArg List.length h2
      rw [List.length_append] at this
      simp at this
      omega
    · have e'' : d = d' ++ [y] := by rw [e']; simp
      rw [e'', List.map_append, List.flatten_append, List.map_singleton, List.flatten_singleton] at h2
      -- the last group ends with what was left over
      have hy := bits_length 5 y
      have hsplit : bits 5 y = (bits 5 y).take (5 - r.length) ++ r ∧
          gs.flatten = (d'.map (bits 5)).flatten ++ (bits 5 y).take (5 - r.length) := by
        have h6 : (d'.map (bits 5)).flatten ++ ((bits 5 y).take (5 - r.length) ++ (bits 5 y).drop (5 - r.length)) =
            gs.flatten ++ r := by rw [List.take_append_drop]; exact h2
        rw [← List.append_assoc] at h6
        have hlen : ((bits 5 y).drop (5 - r.length)).length = r.length := by rw [List.length_drop]; omega
        obtain ⟨h7, h8⟩ := List.append_inj' h6 hlen
        refine ⟨?_, h7.symm⟩
        conv_lhs => rw [← List.take_append_drop (5 - r.length) (bits 5 y), h8]
      obtain ⟨s1, s2⟩ := hsplit
      have htl : ((bits 5 y).take (5 - r.length)).length = 5 - r.length := by rw [List.length_take]; omega
      have hne : (bits 5 y).take (5 - r.length) ≠ [] := by
        intro h
        rw [h] at htl
        simp at htl
        omega
      have hfin : ofBits ((bits 5 y).take (5 - r.length) ++ List.replicate (5 - (5 - r.length)) false) = y := by
        have : 5 - (5 - r.length) = r.length := by omega
        rw [this, ← hr0', ← s1, ofBits_bits]
        exact Nat.mod_eq_of_lt (hd y (by rw [e'']; simp))
      rw [s2, groups_len (by decide) _ _ (h5 d') (by omega)]
      simp only
      rw [if_neg hne, htl, hfin, hb d' (fun x hx => hd x (by rw [e'']; simp [hx])), e'']

/-! ### Texts -/

/-- A human-readable part of lower-case letters, as chains have it. -/
structure PrefixOk (pre : List Char) : Prop where
  two : 2 ≤ pre.length
  short : pre.length ≤ 83
  letters : ∀ c ∈ pre, 97 ≤ c.toNat ∧ c.toNat ≤ 122

theorem ascii_all {P : Char → Prop} (h : ∀ n < 127, P (Char.ofNat n)) {c : Char} (hc : c.toNat ≤ 126) : P c := by
  have := h c.toNat (by omega)
  rwa [Char.ofNat_toNat] at this

theorem upper_lower {c : Char} (hc : c.toNat ≤ 126) : c.toLower.toUpper = c.toUpper := by
  revert hc
  have : ∀ n < 127, (Char.ofNat n).toLower.toUpper = (Char.ofNat n).toUpper := by decide
  exact fun hc => ascii_all (P := fun c => c.toLower.toUpper = c.toUpper) this hc

theorem lower_upper {c : Char} (hc : c.toNat ≤ 126) : c.toUpper.toLower = c.toLower := by
  have : ∀ n < 127, (Char.ofNat n).toUpper.toLower = (Char.ofNat n).toLower := by decide
  exact ascii_all (P := fun c => c.toUpper.toLower = c.toLower) this hc

theorem upper_upper {c : Char} (hc : c.toNat ≤ 126) : c.toUpper.toUpper = c.toUpper := by
  have : ∀ n < 127, (Char.ofNat n).toUpper.toUpper = (Char.ofNat n).toUpper := by decide
  exact ascii_all (P := fun c => c.toUpper.toUpper = c.toUpper) this hc

theorem upper_range {c : Char} (h1 : 33 ≤ c.toNat) (hc : c.toNat ≤ 126) : 33 ≤ c.toUpper.toNat ∧ c.toUpper.toNat ≤ 126 := by
  have : ∀ n < 127, 33 ≤ (Char.ofNat n).toNat → 33 ≤ (Char.ofNat n).toUpper.toNat ∧ (Char.ofNat n).toUpper.toNat ≤ 126 := by
    decide
  exact ascii_all (P := fun c => 33 ≤ c.toNat → 33 ≤ c.toUpper.toNat ∧ c.toUpper.toNat ≤ 126) this hc h1

theorem letter {c : Char} (h : 97 ≤ c.toNat ∧ c.toNat ≤ 122) : c.toLower = c ∧ c.toUpper ≠ c ∧ c ≠ '1' := by
  have : ∀ n < 127, 97 ≤ (Char.ofNat n).toNat ∧ (Char.ofNat n).toNat ≤ 122 → (Char.ofNat n).toLower = Char.ofNat n ∧
      (Char.ofNat n).toUpper ≠ Char.ofNat n ∧ Char.ofNat n ≠ '1' := by decide
  exact ascii_all (P := fun c => 97 ≤ c.toNat ∧ c.toNat ≤ 122 → c.toLower = c ∧ c.toUpper ≠ c ∧ c ≠ '1') this
    (by omega) h

/-- The character of a group. -/
abbrev charOf (d : Nat) : Char := charset.getD d 'q'

theorem charOf_spec {d : Nat} (h : d < 32) :
    groupOf (charOf d) = some d ∧ (charOf d).toLower = charOf d ∧ charOf d ≠ '1' ∧ 33 ≤ (charOf d).toNat ∧
      (charOf d).toNat ≤ 126 := by
  have : ∀ d < 32, groupOf (charOf d) = some d ∧ (charOf d).toLower = charOf d ∧ charOf d ≠ '1' ∧
      33 ≤ (charOf d).toNat ∧ (charOf d).toNat ≤ 126 := by decide
  exact this d h

theorem charOf_inj {d e : Nat} (hd : d < 32) (he : e < 32) (h : charOf d = charOf e) : d = e := by
  have h1 := (charOf_spec hd).1
  rw [h, (charOf_spec he).1] at h1
  exact (Option.some.inj h1).symm

theorem groupOf_spec {c : Char} {d : Nat} (h : groupOf c = some d) : d < 32 ∧ charOf d = c := by
  have hm : c ∈ charset := by
    by_contra hm
    unfold groupOf at h
    rw [List.idxOf?_eq_none_iff.2 hm] at h
    cases h
  have : ∀ c ∈ charset, ∀ d, groupOf c = some d → d < 32 ∧ charOf d = c := by
    have h2 : ∀ c ∈ charset, ∃ d, groupOf c = some d ∧ d < 32 ∧ charOf d = c := by
      have h3 : ∀ c ∈ charset, (groupOf c).any (fun d => decide (d < 32 ∧ charOf d = c)) = true := by decide
      intro c hc
      have h4 := h3 c hc
      cases h5 : groupOf c with
      | none => rw [h5] at h4; cases h4
      | some d =>
        rw [h5] at h4
        exact ⟨d, rfl, of_decide_eq_true h4⟩
    intro c hc d hd
    obtain ⟨d', e1, e2⟩ := h2 c hc
    rw [hd] at e1
    cases e1
    exact e2
  exact this c hm d h

theorem mapM_groupOf {l : List Char} {data : List Nat} (h : l.mapM groupOf = some data) :
    l = data.map charOf ∧ ∀ d ∈ data, d < 32 := by
  induction l generalizing data with
  | nil => cases h; exact ⟨rfl, fun _ hd => (nomatch hd)⟩
  | cons c t ih =>
    rw [List.mapM_cons] at h
    cases h1 : groupOf c with
    | none => rw [h1] at h; cases h
    | some d =>
      cases h2 : t.mapM groupOf with
      | none => rw [h1, h2] at h; cases h
      | some r =>
        rw [h1, h2] at h
        cases h
        obtain ⟨e1, e2⟩ := ih h2
        obtain ⟨e3, e4⟩ := groupOf_spec h1
        exact ⟨by rw [List.map_cons, e4, ← e1], List.forall_mem_cons.2 ⟨e3, e2⟩⟩

theorem mapM_charOf {data : List Nat} (h : ∀ d ∈ data, d < 32) : (data.map charOf).mapM groupOf = some data := by
  induction data with
  | nil => rfl
  | cons d t ih =>
    rw [List.map_cons, List.mapM_cons, (charOf_spec (h d List.mem_cons_self)).1,
      ih fun x hx => h x (List.mem_cons_of_mem _ hx)]
    rfl

theorem splitLast_eq {hrp text : List Char} (h : ∀ c ∈ text, c ≠ '1') : splitLast (hrp ++ '1' :: text) = some (hrp, text) := by
  unfold splitLast
  have e : (hrp ++ '1' :: text).reverse = text.reverse ++ '1' :: hrp.reverse := by simp
  have h' : ∀ c ∈ text.reverse, decide (c ≠ '1') = true := fun c hc => decide_eq_true (h c (List.mem_reverse.1 hc))
  rw [e, List.dropWhile_append_of_pos h', List.takeWhile_append_of_pos h']
  simp

theorem splitLast_some {l hrp text : List Char} (h : splitLast l = some (hrp, text)) :
    l = hrp ++ '1' :: text ∧ ∀ c ∈ text, c ≠ '1' := by
  unfold splitLast at h
  split at h
  · cases h
  · rename_i x t e
    cases h
    have h1 := List.takeWhile_append_dropWhile (p := fun c => decide (c ≠ '1')) (l := l.reverse)
    have hx : x = '1' := by
      by_contra hx
      have : ∀ m : List Char, m.dropWhile (fun c => decide (c ≠ '1')) = x :: t → False := by
        intro m
        induction m with
        | nil => intro h; cases h
        | cons a r ih =>
          intro h
          rw [List.dropWhile_cons] at h
          split at h
          · exact ih h
          · rename_i ha
            cases h
            exact ha (decide_eq_true hx)
      exact this _ e
    subst hx
    rw [e] at h1
    constructor
    · have h2 := congrArg List.reverse h1
      rw [List.reverse_append, List.reverse_cons, List.reverse_reverse, List.append_assoc, List.singleton_append] at h2
      exact h2.symm
    · intro c hc
      have : ∀ m : List Char, ∀ c ∈ m.takeWhile (fun c => decide (c ≠ '1')), c ≠ '1' := by
        intro m
        induction m with
        | nil => intro c hc; cases hc
        | cons a r ih =>
          intro c hc
          rw [List.takeWhile_cons] at hc
          split at hc
          · rename_i ha
            rcases List.mem_cons.1 hc with rfl | hc
            · exact of_decide_eq_true ha
            · exact ih c hc
          · cases hc
      exact this _ c (List.mem_reverse.1 hc)

theorem checksum_length (hrp : List Char) (data : List Nat) : (checksum hrp data).length = 6 := rfl

theorem checksum_lt (hrp : List Char) (data : List Nat) : ∀ d ∈ checksum hrp data, d < 32 := sixGroups_lt _

/-- The text of groups. -/
theorem encode5_eq (hrp : List Char) (data : List Nat) :
    encode5 hrp data = hrp ++ '1' :: (data ++ checksum hrp data).map charOf := rfl

theorem encode5_ascii {hrp : List Char} (hp : PrefixOk hrp) {data : List Nat} (hd : ∀ d ∈ data, d < 32) :
    ∀ c ∈ encode5 hrp data, (33 ≤ c.toNat ∧ c.toNat ≤ 126) ∧ c.toLower = c := by
  intro c hc
  rw [encode5_eq] at hc
  rcases List.mem_append.1 hc with hc | hc
  · have := hp.letters c hc
    exact ⟨⟨by omega, by omega⟩, (letter this).1⟩
  · rcases List.mem_cons.1 hc with rfl | hc
    · decide
    · obtain ⟨d, hd', rfl⟩ := List.mem_map.1 hc
      have : d < 32 := by
        rcases List.mem_append.1 hd' with h | h
        · exact hd d h
        · exact checksum_lt _ _ d h
      have := charOf_spec this
      exact ⟨⟨this.2.2.2.1, this.2.2.2.2⟩, this.2.1⟩

theorem to5_length (b : Bytes) : (to5 b).length ≤ 2 * b.length := by
  unfold to5
  obtain ⟨gs, r, h1, h2, h3, h4⟩ := groups_spec (k := 5) (by decide) _ (b.flatMap fun x => bits 8 x.toNat) le_rfl
  simp only [h1]
  have hl : (b.flatMap fun x => bits 8 x.toNat).length = 8 * b.length := by
    clear h1 h2 h3 h4
    induction b with
    | nil => rfl
    | cons a t ih => rw [List.flatMap_cons, List.length_append, bits_length, ih, List.length_cons]; omega
  have h5 : gs.flatten.length = 5 * gs.length := by
    clear h1 h2 hl
    induction gs with
    | nil => rfl
    | cons a t ih =>
      rw [List.flatten_cons, List.length_append, h3 a List.mem_cons_self, List.length_cons,
        ih fun x hx => h3 x (List.mem_cons_of_mem _ hx)]
      omega
  rw [h2, List.length_append, h5] at hl
  rw [List.length_append, List.length_map]
  split
  · rw [List.length_nil]; omega
  · rename_i hr
    have := List.length_pos_iff.2 hr
    rw [List.length_singleton]
    omega

theorem decode5_some {l : List Char} {hrp : List Char} {data : List Nat} (h : decode5 l = some (hrp, data)) :
    (l = encode5 hrp data ∨ l = (encode5 hrp data).map Char.toUpper) ∧ l.map Char.toLower = encode5 hrp data ∧
      ∀ d ∈ data, d < 32 := by
  unfold decode5 at h
  split at h
  · cases h
  split at h
  · cases h
  rename_i hlen hasc
  split at h
  · cases h
  rename_i hcase
  split at h
  · cases h
  rename_i hrp' text hs
  split at h
  · cases h
  rename_i hne
  split at h
  · cases h
  rename_i data' hm
  split at h
  rotate_left
  · cases h
  rename_i hv
  cases h
  obtain ⟨e1, _⟩ := splitLast_some hs
  obtain ⟨e2, e3⟩ := mapM_groupOf hm
  have hlt : 6 ≤ data'.length := by
    have := congrArg List.length e2
    rw [List.length_map] at this
    rw [not_or] at hne
    omega
  have e4 : data' = data'.take (data'.length - 6) ++ data'.drop (data'.length - 6) :=
    (List.take_append_drop _ _).symm
  have e5 : data'.drop (data'.length - 6) = checksum hrp (data'.take (data'.length - 6)) := by
    refine (verified_iff _ _ _ ?_ ?_).1 ?_
    · rw [List.length_drop]; omega
    · exact fun d hd => e3 d (List.mem_of_mem_drop hd)
    · rw [← e4]; exact hv
  have e6 : l.map Char.toLower = encode5 hrp (data'.take (data'.length - 6)) := by
    rw [encode5_eq, ← e5, ← e4, e1, e2]
  refine ⟨?_, e6, fun d hd => e3 d (List.mem_of_mem_take hd)⟩
  rw [not_and_or, not_not, not_not] at hcase
  rcases hcase with hc | hc
  · left
    rw [hc, e6]
  · right
    rw [← e6, List.map_map]
    conv_lhs => rw [hc]
    refine List.map_congr_left fun c hc => ?_
    refine (upper_lower ?_).symm
    by_contra hx
    refine hasc (List.any_eq_true.2 ⟨c, hc, ?_⟩)
    have : 126 < c.toNat := by omega
    simp [this]

theorem decode5_encode5 {pre : List Char} (hp : PrefixOk pre) {data : List Nat} (hd : ∀ d ∈ data, d < 32)
    (hlen : data.length ≤ 900) {l : List Char}
    (hl : l = encode5 pre data ∨ l = (encode5 pre data).map Char.toUpper) : decode5 l = some (pre, data) := by
  have hasc := encode5_ascii hp hd
  have hlow : l.map Char.toLower = encode5 pre data := by
    rcases hl with rfl | rfl
    · conv_rhs => rw [← List.map_id (encode5 pre data)]
      exact List.map_congr_left fun c hc => (hasc c hc).2
    · rw [List.map_map]
      conv_rhs => rw [← List.map_id (encode5 pre data)]
      exact List.map_congr_left fun c hc => (lower_upper (hasc c hc).1.2).trans (hasc c hc).2
  have hlength : l.length = pre.length + 1 + data.length + 6 := by
    have : l.length = (encode5 pre data).length := by
      rcases hl with rfl | rfl
      · rfl
      · rw [List.length_map]
    rw [this, encode5_eq, List.length_append, List.length_cons, List.length_map, List.length_append, checksum_length]
    omega
  have h2 := hp.two
  have h3 := hp.short
  have hall : ∀ c ∈ l, 33 ≤ c.toNat ∧ c.toNat ≤ 126 := by
    rcases hl with rfl | rfl
    · exact fun c hc => (hasc c hc).1
    · intro c hc
      obtain ⟨x, hx, rfl⟩ := List.mem_map.1 hc
      exact upper_range (hasc x hx).1.1 (hasc x hx).1.2
  unfold decode5
  have n1 : ¬ (l.length < 8 ∨ 1023 < l.length) := by omega
  have n2 : ¬ (l.any (fun c => c.toNat < 33 || 126 < c.toNat) = true) := by
    intro h
    obtain ⟨c, hc, h⟩ := List.any_eq_true.1 h
    have := hall c hc
    simp only [Bool.or_eq_true, decide_eq_true_eq] at h
    omega
  have n3 : ¬ (l ≠ l.map Char.toLower ∧ l ≠ l.map Char.toUpper) := by
    rintro ⟨h, h'⟩
    rcases hl with e | e
    · exact h (by rw [hlow, e])
    · refine h' ?_
      rw [e, List.map_map]
      exact List.map_congr_left fun c hc => (upper_upper (hasc c hc).1.2).symm
  have hgood : ∀ d ∈ data ++ checksum pre data, d < 32 := by
    intro d h
    rcases List.mem_append.1 h with h | h
    · exact hd d h
    · exact checksum_lt _ _ d h
  have hs : splitLast (l.map Char.toLower) = some (pre, (data ++ checksum pre data).map charOf) := by
    rw [hlow, encode5_eq]
    refine splitLast_eq fun c hc => ?_
    obtain ⟨d, hd', rfl⟩ := List.mem_map.1 hc
    exact (charOf_spec (hgood d hd')).2.2.1
  have n4 : ¬ (pre = [] ∨ ((data ++ checksum pre data).map charOf).length < 6) := by
    rintro (h | h)
    · rw [h] at h2
      cases h2
    · rw [List.length_map, List.length_append, checksum_length] at h
      omega
  have hv : verified pre (data ++ checksum pre data) = true :=
    (verified_iff pre data _ (checksum_length _ _) (checksum_lt _ _)).2 rfl
  rw [if_neg n1, if_neg n2, if_neg n3, hs]
  simp only
  rw [if_neg n4, mapM_charOf hgood]
  simp only
  rw [if_pos hv, List.length_append, checksum_length, Nat.add_sub_cancel, List.take_left]

/-- A text is read as an address exactly if it is one of the two spellings of the address. -/
theorem decode_iff {pre : String} (hp : PrefixOk pre.toList) (s : String) (a : Addr) :
    decode pre s = some a ↔ (s = encode pre a ∨ s = String.ofList ((encode pre a).toList.map Char.toUpper)) ∧
      1 ≤ a.length ∧ a.length ≤ 255 := by
  have hinj : ∀ {t : List Char}, s = String.ofList t ↔ s.toList = t := fun {t} => by
    constructor
    · rintro rfl; exact String.toList_ofList
    · rintro rfl; exact String.ofList_toList.symm
  unfold encode
  rw [String.toList_ofList, hinj, hinj]
  constructor
  · intro h
    unfold decode at h
    split at h
    · cases h
    rename_i hrp data h5
    split at h
    · cases h
    rename_i b h8
    split at h
    rotate_left
    · cases h
    rename_i hc
    cases h
    obtain ⟨e1, _, e3⟩ := decode5_some h5
    obtain ⟨rfl, hlen⟩ := hc
    rw [to5_to8 e3 h8]
    exact ⟨e1, hlen⟩
  · rintro ⟨h, hlen⟩
    have h5 : decode5 s.toList = some (pre.toList, to5 a) :=
      decode5_encode5 hp (to5_lt a) (by have := to5_length a; omega) h
    unfold decode
    rw [h5]
    simp only [to8_to5]
    rw [if_pos ⟨trivial, hlen⟩]

theorem decode_lower {pre s : String} {a : Addr} (h : decode pre s = some a) :
    String.ofList (s.toList.map Char.toLower) = encode pre a := by
  unfold decode at h
  split at h
  · cases h
  rename_i hrp data h5
  split at h
  · cases h
  rename_i b h8
  split at h
  rotate_left
  · cases h
  rename_i hc
  cases h
  obtain ⟨_, e2, e3⟩ := decode5_some h5
  unfold encode
  rw [to5_to8 e3 h8, ← hc.1, e2]

theorem encode_inj {pre : String} {a b : Addr} (h : encode pre a = encode pre b) : a = b := by
  have h1 := congrArg String.toList h
  unfold encode at h1
  rw [String.toList_ofList, String.toList_ofList, encode5_eq, encode5_eq] at h1
  have h2 := (List.cons.inj (List.append_cancel_left h1)).2
  have h3 : to5 a ++ checksum pre.toList (to5 a) = to5 b ++ checksum pre.toList (to5 b) := by
    have ha : ∀ x : Addr, ∀ d ∈ to5 x ++ checksum pre.toList (to5 x), d < 32 := fun x d hd => by
      rcases List.mem_append.1 hd with hd | hd
      · exact to5_lt x d hd
      · exact checksum_lt _ _ d hd
    have := mapM_charOf (ha a)
    rw [h2, mapM_charOf (ha b)] at this
    exact (Option.some.inj this).symm
  have h4 := (List.append_inj' h3 (by rw [checksum_length, checksum_length])).1
  have := to8_to5 a
  rw [h4, to8_to5] at this
  exact (Option.some.inj this).symm

end Dollar.Bech32
