import Verif.Model.Json
import Verif.Lemmas.PacketJson

/-
Written JSON values are read back, whatever white space stands between the tokens.
-/
namespace Dollar.Json

/-! ### Tokens to values -/

theorem toks_cons (j : J) : ∃ t u, j.toks = t :: u ∧ t ≠ .rbrack ∧ t ≠ .rbrace := by
  cases j <;> unfold J.toks <;> exact ⟨_, _, rfl, by simp, by simp⟩

theorem toks_pos (j : J) : 0 < j.toks.length := by
  obtain ⟨t, u, h, _⟩ := toks_cons j
  rw [h]; exact Nat.succ_pos _

theorem commas_cons (t : List Tok) (r : List (List Tok)) (h : r ≠ []) :
    commas (t :: r) = t ++ .comma :: commas r := by
  cases r with
  | nil => exact absurd rfl h
  | cons a b => rfl

mutual
theorem parse_toks : (j : J) → (n : Nat) → (r : List Tok) → (h : j.toks.length ≤ n) →
    parse n (j.toks ++ r) = some (j, r)
  | .null, n, r, h => by
    cases n with
    | zero => exact absurd h (by unfold J.toks; simp)
    | succ n => unfold J.toks; rfl
  | .bool b, n, r, h => by
    cases n with
    | zero => exact absurd h (by unfold J.toks; simp)
    | succ n => unfold J.toks; rfl
  | .num t, n, r, h => by
    cases n with
    | zero => exact absurd h (by unfold J.toks; simp)
    | succ n => unfold J.toks; rfl
  | .str s, n, r, h => by
    cases n with
    | zero => exact absurd h (by unfold J.toks; simp)
    | succ n => unfold J.toks; rfl
  | .arr l, n, r, h => by
    unfold J.toks at h ⊢
    simp only [List.length_cons, List.length_append, List.length_nil, Nat.zero_add] at h
    cases n with
    | zero => omega
    | succ n =>
      cases l with
      | nil => rfl
      | cons j t =>
        have hp := parseAll_toks (j :: t) n r (by simp) (by omega)
        rw [List.cons_append, List.append_assoc, List.singleton_append]
        obtain ⟨x, u, hx, hx1, _⟩ := toks_cons j
        have he : ∃ v, commas (toksAll (j :: t)) = x :: v := by
          unfold toksAll
          cases t with
          | nil => exact ⟨u, by unfold toksAll commas; exact hx⟩
          | cons a b => unfold toksAll commas; rw [hx]; exact ⟨_, rfl⟩
        obtain ⟨v, hv⟩ := he
        rw [hv] at hp ⊢
        rw [List.cons_append] at hp ⊢
        unfold parse
        split
        all_goals first
          | (rename_i he; simp only [List.cons.injEq] at he; exact absurd he.2.1 hx1)
          | (rename_i he; simp only [List.cons.injEq, true_and] at he; rw [← he, hp]; rfl)
          | (rename_i h1 _ _; exact (h1 _ rfl).elim)
          | (rename_i he; simp at he)
  | .obj l, n, r, h => by
    unfold J.toks at h ⊢
    simp only [List.length_cons, List.length_append, List.length_nil, Nat.zero_add] at h
    cases n with
    | zero => omega
    | succ n =>
      cases l with
      | nil => rfl
      | cons j t =>
        have hp := parseMembers_toks (j :: t) n r (by simp) (by omega)
        rw [List.cons_append, List.append_assoc, List.singleton_append]
        obtain ⟨k, j⟩ := j
        have he : ∃ v, commas (toksMembers ((k, j) :: t)) = .str k :: v := by
          unfold toksMembers
          cases t with
          | nil => exact ⟨_, by unfold toksMembers commas; rfl⟩
          | cons a b => obtain ⟨a1, a2⟩ := a; unfold toksMembers commas; exact ⟨_, rfl⟩
        obtain ⟨v, hv⟩ := he
        rw [hv] at hp ⊢
        rw [List.cons_append] at hp ⊢
        unfold parse
        simp only []
        rw [hp]; rfl

theorem parseAll_toks : (l : List J) → (n : Nat) → (r : List Tok) → (hl : l ≠ []) →
    (h : (commas (toksAll l)).length + 1 ≤ n) →
    parseAll n (commas (toksAll l) ++ .rbrack :: r) = some (l, r)
  | [], _, _, hl, _ => absurd rfl hl
  | [j], n, r, _, h => by
    unfold toksAll toksAll commas at h ⊢
    cases n with
    | zero => omega
    | succ n =>
      unfold parseAll
      rw [parse_toks j n (.rbrack :: r) (by omega)]
  | j :: a :: b, n, r, _, h => by
    have ht : toksAll (j :: a :: b) = j.toks :: toksAll (a :: b) := by conv_lhs => unfold toksAll
    have hn : toksAll (a :: b) ≠ [] := by unfold toksAll; simp
    rw [ht, commas_cons _ _ hn] at h ⊢
    simp only [List.length_append, List.length_cons] at h
    cases n with
    | zero => omega
    | succ n =>
      have := toks_pos j
      rw [List.append_assoc, List.cons_append]
      unfold parseAll
      rw [parse_toks j n _ (by omega)]
      simp only []
      rw [parseAll_toks (a :: b) n r (by simp) (by omega)]
      rfl

theorem parseMembers_toks : (l : List (List Char × J)) → (n : Nat) → (r : List Tok) → (hl : l ≠ []) →
    (h : (commas (toksMembers l)).length + 1 ≤ n) →
    parseMembers n (commas (toksMembers l) ++ .rbrace :: r) = some (l, r)
  | [], _, _, hl, _ => absurd rfl hl
  | [(k, j)], n, r, _, h => by
    unfold toksMembers toksMembers commas at h ⊢
    simp only [List.length_cons] at h
    cases n with
    | zero => omega
    | succ n =>
      unfold parseMembers
      simp only [List.cons_append]
      rw [parse_toks j n (.rbrace :: r) (by omega)]
  | (k, j) :: a :: b, n, r, _, h => by
    have ht : toksMembers ((k, j) :: a :: b) = (.str k :: .colon :: j.toks) :: toksMembers (a :: b) := by
      conv_lhs => unfold toksMembers
    have hn : toksMembers (a :: b) ≠ [] := by obtain ⟨a1, a2⟩ := a; unfold toksMembers; simp
    rw [ht, commas_cons _ _ hn] at h ⊢
    simp only [List.length_append, List.length_cons] at h
    cases n with
    | zero => omega
    | succ n =>
      have := toks_pos j
      rw [List.append_assoc, List.cons_append, List.cons_append, List.cons_append]
      unfold parseMembers
      simp only []
      rw [parse_toks j n _ (by omega)]
      simp only []
      rw [parseMembers_toks (a :: b) n r (by simp) (by omega)]
      rfl
end

/-! ### Text to tokens -/

/-- A token that is not a number, or a number of number characters. -/
def Tok.Ok : Tok → Prop
  | .num t => t ≠ [] ∧ ∀ c ∈ t, isNumChar c = true
  | _ => True

/-- White space. -/
def isWs (c : Char) : Prop := c = ' ' ∨ c = '\n' ∨ c = '\r' ∨ c = '\t'

/-- `l` is the text of `toks` with any white space before, between and after the tokens. -/
inductive Spaced : List Tok → List Char → Prop
  | nil {ws : List Char} : (∀ c ∈ ws, isWs c) → Spaced [] ws
  | cons {ws : List Char} {t : Tok} {toks : List Tok} {l : List Char} :
    (∀ c ∈ ws, isWs c) → Spaced toks l → Spaced (t :: toks) (ws ++ (t.text ++ l))

/-- A number token. -/
def Tok.isNum : Tok → Bool
  | .num _ => true
  | _ => false

/-- No two neighbouring tokens are numbers. -/
def Apart : List Tok → Prop
  | a :: b :: t => ¬ (a.isNum = true ∧ b.isNum = true) ∧ Apart (b :: t)
  | _ => True

theorem skip_ws {ws : List Char} (h : ∀ c ∈ ws, isWs c) (l : List Char) : skip (ws ++ l) = skip l := by
  induction ws with
  | nil => rfl
  | cons c t ih =>
    have hc : c = ' ' ∨ c = '\n' ∨ c = '\r' ∨ c = '\t' := h c List.mem_cons_self
    rw [List.cons_append, skip, if_pos hc]
    exact ih fun x hx => h x (List.mem_cons_of_mem _ hx)

theorem not_numChar_ws {c : Char} (h : isWs c) : isNumChar c = false := by
  rcases h with rfl | rfl | rfl | rfl <;> decide

theorem skip_numChar {c : Char} (h : isNumChar c = true) (l : List Char) : skip (c :: l) = c :: l := by
  rw [skip, if_neg]
  intro hw
  rw [not_numChar_ws hw] at h
  cases h

/-- The text of a token does not begin with white space. -/
theorem skip_text {t : Tok} (ht : t.Ok) (l : List Char) : skip (t.text ++ l) = t.text ++ l := by
  cases t with
  | num x =>
    obtain ⟨hne, hx⟩ := ht
    cases x with
    | nil => exact absurd rfl hne
    | cons c u => exact skip_numChar (hx c List.mem_cons_self) _
  | bool b => cases b <;> rfl
  | str s => exact skip_quote s l
  | _ => rfl

theorem text_ne_nil {t : Tok} (ht : t.Ok) : t.text ≠ [] := by
  cases t with
  | num x => exact ht.1
  | bool b => cases b <;> simp [Tok.text]
  | str s => simp [Tok.text, quote]
  | _ => simp [Tok.text]

theorem lexOne_num {c : Char} (h : isNumChar c = true) (t : List Char) :
    lexOne (c :: t) = some (.num ((c :: t).takeWhile isNumChar), (c :: t).dropWhile isNumChar) := by
  unfold lexOne
  split
  all_goals first
    | (rename_i he; simp only [List.cons.injEq] at he; obtain ⟨rfl, rfl⟩ := he; rw [if_pos h])
    | (rename_i he; simp only [List.cons.injEq] at he; exact absurd h (by rw [he.1]; decide))
    | (rename_i he; cases he)

/-- What follows a token does not continue it. -/
def Stops (t : Tok) (l : List Char) : Prop := t.isNum = true → ∀ c r, l = c :: r → isNumChar c = false

theorem lexOne_text {t : Tok} (ht : t.Ok) {l : List Char} (hs : Stops t l) :
    lexOne (t.text ++ l) = some (t, l) := by
  cases t with
  | num x =>
    obtain ⟨hne, hx⟩ := ht
    cases x with
    | nil => exact absurd rfl hne
    | cons c u =>
      show lexOne (c :: (u ++ l)) = _
      rw [lexOne_num (hx c List.mem_cons_self)]
      have e1 : (c :: (u ++ l)).takeWhile isNumChar = c :: u := by
        rw [← List.cons_append, List.takeWhile_append_of_pos hx]
        cases l with
        | nil => simp
        | cons a r => rw [List.takeWhile_cons_of_neg (by rw [hs rfl a r rfl]; simp)]; simp
      have e2 : (c :: (u ++ l)).dropWhile isNumChar = l := by
        rw [← List.cons_append, List.dropWhile_append_of_pos hx]
        cases l with
        | nil => rfl
        | cons a r => rw [List.dropWhile_cons_of_neg (by rw [hs rfl a r rfl]; simp)]
      rw [e1, e2]
  | bool b => cases b <;> rfl
  | str s =>
    show lexOne (quote s ++ l) = _
    unfold lexOne
    have hq : quote s ++ l = '"' :: (s.flatMap escape ++ ['"'] ++ l) := rfl
    rw [hq]
    simp only []
    rw [← hq, string_quote]
    rfl
  | _ => rfl

theorem spaced_head {t : Tok} {toks : List Tok} {l : List Char} (h : Spaced (t :: toks) l) (ht : t.Ok)
    (hn : t.isNum = false) : ∀ c r, l = c :: r → isNumChar c = false := by
  intro c r he
  cases h with
  | cons hw h' =>
    rename_i ws l'
    cases ws with
    | cons w u =>
      rw [List.cons_append] at he
      injection he with h1 _
      rw [← h1]
      exact not_numChar_ws (hw w List.mem_cons_self)
    | nil =>
      rw [List.nil_append] at he
      cases t with
      | num x => cases hn
      | bool b => cases b <;> (injection he with h1 _; rw [← h1]; decide)
      | str s => injection he with h1 _; rw [← h1]; decide
      | _ => injection he with h1 _; rw [← h1]; decide

theorem apart_tail {t : Tok} {l : List Tok} (h : Apart (t :: l)) : Apart l := by
  cases l with
  | nil => trivial
  | cons a b => unfold Apart at h; exact h.2

theorem lex_spaced {toks : List Tok} {l : List Char} (h : Spaced toks l) (hok : ∀ t ∈ toks, t.Ok)
    (ha : Apart toks) : ∀ n, l.length < n → lex n l = some toks := by
  induction h with
  | nil hw =>
    rename_i ws
    intro n hn
    cases n with
    | zero => omega
    | succ n =>
      have := skip_ws hw []
      rw [List.append_nil] at this
      unfold lex
      rw [this]; rfl
  | cons hw hs ih =>
    rename_i ws t toks l
    intro n hn
    have ht := hok t List.mem_cons_self
    have hne := text_ne_nil ht
    have hlen : 0 < t.text.length := List.length_pos_iff.2 hne
    simp only [List.length_append] at hn
    cases n with
    | zero => omega
    | succ n =>
      have hst : Stops t l := by
        intro hnum
        cases toks with
        | nil =>
          intro c r he
          subst he
          cases hs with
          | nil hw' => exact not_numChar_ws (hw' c List.mem_cons_self)
        | cons u v =>
          have hu : u.isNum = false := by
            have := ha
            unfold Apart at this
            cases hb : u.isNum with
            | false => rfl
            | true => exact absurd ⟨hnum, hb⟩ this.1
          exact spaced_head hs (hok u (by simp)) hu
      have e := lexOne_text ht hst
      have e2 := ih (fun x hx => hok x (List.mem_cons_of_mem _ hx)) (apart_tail ha) n (by omega)
      unfold lex
      rw [skip_ws hw, skip_text ht]
      split
      · rename_i h0; exact absurd (List.append_eq_nil_iff.1 h0).1 hne
      · rw [e]; simp only [Option.bind_some, e2, Option.map_some]

/-! ### Values whose numbers are in order -/

mutual
/-- Every number in the value is a number. -/
def J.Ok : J → Prop
  | .num t => t ≠ [] ∧ ∀ c ∈ t, isNumChar c = true
  | .arr l => okAll l
  | .obj l => okMembers l
  | _ => True
/-- Every number in the values is a number. -/
def okAll : List J → Prop
  | [] => True
  | j :: t => j.Ok ∧ okAll t
/-- Every number in the members is a number. -/
def okMembers : List (List Char × J) → Prop
  | [] => True
  | (_, j) :: t => j.Ok ∧ okMembers t
end

/-- A list of tokens that can follow a value. -/
def Follows (r : List Tok) : Prop := ∀ t u, r = t :: u → t.isNum = false

theorem apart_cons {t : Tok} {r : List Tok} (h : t.isNum = false) (hr : Apart r) : Apart (t :: r) := by
  cases r with
  | nil => exact trivial
  | cons a b => exact ⟨fun hh => Bool.noConfusion (h.symm.trans hh.1), hr⟩

theorem apart_num {x : List Char} {r : List Tok} (hf : Follows r) (hr : Apart r) : Apart (.num x :: r) := by
  cases r with
  | nil => exact trivial
  | cons a b =>
    refine ⟨fun hh => ?_, hr⟩
    rw [hf a b rfl] at hh
    cases hh.2

mutual
theorem apart_toks : (j : J) → (r : List Tok) → Follows r → Apart r → Apart (j.toks ++ r)
  | .null, r, _, hr => by unfold J.toks; exact apart_cons rfl hr
  | .bool b, r, _, hr => by unfold J.toks; exact apart_cons rfl hr
  | .num t, r, hf, hr => by unfold J.toks; exact apart_num hf hr
  | .str s, r, _, hr => by unfold J.toks; exact apart_cons rfl hr
  | .arr l, r, _, hr => by
    unfold J.toks
    rw [List.cons_append, List.append_assoc, List.singleton_append]
    refine apart_cons rfl (apart_all l _ ?_ (apart_cons rfl hr))
    rintro t u h; cases h; rfl
  | .obj l, r, _, hr => by
    unfold J.toks
    rw [List.cons_append, List.append_assoc, List.singleton_append]
    refine apart_cons rfl (apart_members l _ ?_ (apart_cons rfl hr))
    rintro t u h; cases h; rfl
theorem apart_all : (l : List J) → (r : List Tok) → Follows r → Apart r → Apart (commas (toksAll l) ++ r)
  | [], r, _, hr => hr
  | [j], r, hf, hr => by
    unfold toksAll toksAll commas
    exact apart_toks j r hf hr
  | j :: a :: b, r, hf, hr => by
    have ht : toksAll (j :: a :: b) = j.toks :: toksAll (a :: b) := by conv_lhs => unfold toksAll
    have hn : toksAll (a :: b) ≠ [] := by unfold toksAll; simp
    rw [ht, commas_cons _ _ hn, List.append_assoc, List.cons_append]
    refine apart_toks j _ ?_ (apart_cons rfl (apart_all (a :: b) r hf hr))
    rintro t u h; cases h; rfl
theorem apart_members : (l : List (List Char × J)) → (r : List Tok) → Follows r → Apart r →
    Apart (commas (toksMembers l) ++ r)
  | [], r, _, hr => hr
  | [(k, j)], r, hf, hr => by
    unfold toksMembers toksMembers commas
    exact apart_cons rfl (apart_cons rfl (apart_toks j r hf hr))
  | (k, j) :: a :: b, r, hf, hr => by
    have ht : toksMembers ((k, j) :: a :: b) = (.str k :: .colon :: j.toks) :: toksMembers (a :: b) := by
      conv_lhs => unfold toksMembers
    have hn : toksMembers (a :: b) ≠ [] := by obtain ⟨a1, a2⟩ := a; unfold toksMembers; simp
    rw [ht, commas_cons _ _ hn, List.append_assoc, List.cons_append]
    refine apart_cons rfl (apart_cons rfl (apart_toks j _ ?_ (apart_cons rfl (apart_members (a :: b) r hf hr))))
    rintro t u h; cases h; rfl
end

theorem mem_commas {x : Tok} {l : List (List Tok)} (h : x ∈ commas l) : x = .comma ∨ ∃ t ∈ l, x ∈ t := by
  induction l with
  | nil => cases h
  | cons a b ih =>
    cases b with
    | nil => exact .inr ⟨a, by simp, h⟩
    | cons c d =>
      rw [commas_cons _ _ (by simp)] at h
      rcases List.mem_append.1 h with h | h
      · exact .inr ⟨a, by simp, h⟩
      · rcases List.mem_cons.1 h with h | h
        · exact .inl h
        · rcases ih h with h | ⟨t, ht, hx⟩
          · exact .inl h
          · exact .inr ⟨t, List.mem_cons_of_mem _ ht, hx⟩

mutual
theorem ok_toks : (j : J) → j.Ok → ∀ t ∈ j.toks, t.Ok
  | .null, _, t, h => by unfold J.toks at h; rw [List.mem_singleton.1 h]; trivial
  | .bool b, _, t, h => by unfold J.toks at h; rw [List.mem_singleton.1 h]; trivial
  | .num x, ho, t, h => by unfold J.toks at h; rw [List.mem_singleton.1 h]; unfold J.Ok at ho; exact ho
  | .str s, _, t, h => by unfold J.toks at h; rw [List.mem_singleton.1 h]; trivial
  | .arr l, ho, t, h => by
    unfold J.toks at h
    unfold J.Ok at ho
    rcases List.mem_cons.1 h with rfl | h
    · trivial
    · rcases List.mem_append.1 h with h | h
      · rcases mem_commas h with rfl | ⟨u, hu, hx⟩
        · trivial
        · exact ok_toksAll l ho u hu t hx
      · rw [List.mem_singleton.1 h]; trivial
  | .obj l, ho, t, h => by
    unfold J.toks at h
    unfold J.Ok at ho
    rcases List.mem_cons.1 h with rfl | h
    · trivial
    · rcases List.mem_append.1 h with h | h
      · rcases mem_commas h with rfl | ⟨u, hu, hx⟩
        · trivial
        · exact ok_toksMembers l ho u hu t hx
      · rw [List.mem_singleton.1 h]; trivial
theorem ok_toksAll : (l : List J) → okAll l → ∀ u ∈ toksAll l, ∀ t ∈ u, t.Ok
  | [], _, u, hu, _, _ => by unfold toksAll at hu; cases hu
  | j :: r, ho, u, hu, t, ht => by
    unfold toksAll at hu
    unfold okAll at ho
    rcases List.mem_cons.1 hu with rfl | hu
    · exact ok_toks j ho.1 t ht
    · exact ok_toksAll r ho.2 u hu t ht
theorem ok_toksMembers : (l : List (List Char × J)) → okMembers l → ∀ u ∈ toksMembers l, ∀ t ∈ u, t.Ok
  | [], _, u, hu, _, _ => by unfold toksMembers at hu; cases hu
  | (k, j) :: r, ho, u, hu, t, ht => by
    unfold toksMembers at hu
    unfold okMembers at ho
    rcases List.mem_cons.1 hu with rfl | hu
    · rcases List.mem_cons.1 ht with rfl | ht
      · trivial
      · rcases List.mem_cons.1 ht with rfl | ht
        · trivial
        · exact ok_toks j ho.1 t ht
    · exact ok_toksMembers r ho.2 u hu t ht
end

/-- A value is read back from its text, whatever white space stands between the tokens. -/
theorem read_spaced (j : J) (hj : j.Ok) {l : List Char} (h : Spaced j.toks l) : J.read l = some j := by
  have ha : Apart j.toks := by
    have := apart_toks j [] (fun t u h => nomatch h) trivial
    rwa [List.append_nil] at this
  unfold J.read
  rw [lex_spaced h (ok_toks j hj) ha _ (Nat.lt_succ_self _)]
  simp only [Option.bind_some]
  have := parse_toks j (j.toks.length + 1) [] (Nat.le_succ _)
  rw [List.append_nil] at this
  rw [this]

theorem spaced_text (toks : List Tok) : Spaced toks (toks.flatMap Tok.text) := by
  induction toks with
  | nil => exact .nil (fun _ h => nomatch h)
  | cons t r ih => exact .cons (ws := []) (fun _ h => nomatch h) ih

/-- The compact text is read back. -/
theorem read_text (j : J) (hj : j.Ok) : J.read j.text = some j := read_spaced j hj (spaced_text _)

end Dollar.Json
