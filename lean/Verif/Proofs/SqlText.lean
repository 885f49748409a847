import Verif.Spec.SqlText
import Mathlib.Data.List.Forall2
/-
Reading back the text of the SQL.
-/
namespace Mentat
namespace SqlText

/-! ### Characters and numbers -/

theorem digitChar_facts : ∀ d, d < 10 → (digitChar d).isDigit = true ∧ digitVal (digitChar d) = d := by
  decide

theorem isAlphanum_of_isDigit {c : Char} (h : c.isDigit = true) : c.isAlphanum = true := by
  simp [Char.isAlphanum, h]

theorem idChar_of_isAlphanum {c : Char} (h : c.isAlphanum = true) : idChar c = true := by
  simp [idChar, h]

theorem idChar_of_isDigit {c : Char} (h : c.isDigit = true) : idChar c = true :=
  idChar_of_isAlphanum (isAlphanum_of_isDigit h)

def fold10 (n : Nat) (ds : Text) : Nat := ds.foldl (fun n c => 10 * n + digitVal c) n

theorem decimalAux_facts : ∀ f n, n < f →
    (∀ c ∈ decimalAux f n, c.isDigit = true) ∧ fold10 0 (decimalAux f n) = n ∧ decimalAux f n ≠ [] := by
  intro f
  induction f with
  | zero => intro n h; omega
  | succ f ih =>
    intro n h
    simp only [decimalAux]
    split
    · rename_i h10
      obtain ⟨h1, h2⟩ := digitChar_facts n h10
      refine ⟨by simpa using h1, ?_, by simp⟩
      simp [fold10, h2]
    · obtain ⟨i1, i2, i3⟩ := ih (n / 10) (by omega)
      obtain ⟨h1, h2⟩ := digitChar_facts (n % 10) (by omega)
      refine ⟨?_, ?_, by simp⟩
      · intro c hc
        rcases List.mem_append.mp hc with hc | hc
        · exact i1 c hc
        · obtain rfl := List.mem_singleton.mp hc; exact h1
      · unfold fold10 at i2 ⊢
        rw [List.foldl_append, i2]
        simp [h2]; omega

theorem decimal_facts (n : Nat) :
    (∀ c ∈ decimal n, c.isDigit = true) ∧ fold10 0 (decimal n) = n ∧ decimal n ≠ [] :=
  decimalAux_facts _ _ (by omega)

theorem decimal_inj {m n : Nat} (h : decimal m = decimal n) : m = n := by
  rw [← (decimal_facts m).2.1, ← (decimal_facts n).2.1, h]

/-! ### Reading one token -/

/-- What may follow a token: nothing, or a separator. -/
def Sep (rest : Text) : Prop := rest = [] ∨ ∃ c r, rest = c :: r ∧ (c = ' ' ∨ c = ',' ∨ c = ')')

theorem lex_start (c : Char) (r : Text) :
    lexFrom .start (c :: r) = (begins c).1 ++ lexFrom (begins c).2 r := rfl

/-- A state in which the separators, and the end, complete the token. -/
theorem lex_sep {st : State} {t : Tok} (hf : flush st = [t])
    (he : ∀ c, (c = ' ' ∨ c = ',' ∨ c = ')') → lexStep st c = ends t c) {rest : Text} (hs : Sep rest) :
    lexFrom st rest = t :: lexFrom .start rest := by
  rcases hs with rfl | ⟨c, r, rfl, hc⟩
  · exact hf
  · simp only [lexFrom, he c hc, ends, List.cons_append]; rfl

theorem word_run (w : Text) : ∀ acc rest, (∀ c ∈ w, idChar c = true) →
    lexFrom (.word acc) (w ++ rest) = lexFrom (.word (acc ++ w)) rest := by
  induction w with
  | nil => intro acc rest _; simp
  | cons c w ih =>
    intro acc rest h
    rw [List.cons_append, lexFrom, lexStep, if_pos (h c (by simp))]
    rw [List.nil_append, ih _ _ fun x hx => h x (by simp [hx])]
    simp

theorem param_run (w : Text) : ∀ acc rest, (∀ c ∈ w, idChar c = true) →
    lexFrom (.param acc) (w ++ rest) = lexFrom (.param (acc ++ w)) rest := by
  induction w with
  | nil => intro acc rest _; simp
  | cons c w ih =>
    intro acc rest h
    rw [List.cons_append, lexFrom, lexStep, if_pos (h c (by simp))]
    rw [List.nil_append, ih _ _ fun x hx => h x (by simp [hx])]
    simp

theorem int_run (w : Text) : ∀ n acc rest, (∀ c ∈ w, c.isDigit = true) →
    lexFrom (.int n acc) (w ++ rest) = lexFrom (.int (fold10 n w) (acc ++ w)) rest := by
  induction w with
  | nil => intro n acc rest _; simp [fold10]
  | cons c w ih =>
    intro n acc rest h
    rw [List.cons_append, lexFrom, lexStep, if_pos (h c (by simp))]
    rw [List.nil_append, ih _ _ _ fun x hx => h x (by simp [hx])]
    simp [fold10]

theorem frac_run (w : Text) : ∀ acc rest, (∀ c ∈ w, c.isDigit = true) →
    lexFrom (.frac acc) (w ++ rest) = lexFrom (.frac (acc ++ w)) rest := by
  induction w with
  | nil => intro acc rest _; simp
  | cons c w ih =>
    intro acc rest h
    rw [List.cons_append, lexFrom, lexStep, if_pos (h c (by simp))]
    rw [List.nil_append, ih _ _ fun x hx => h x (by simp [hx])]
    simp

theorem expo_run (w : Text) : ∀ acc rest, (∀ c ∈ w, c.isDigit = true) →
    lexFrom (.expoDigits acc) (w ++ rest) = lexFrom (.expoDigits (acc ++ w)) rest := by
  induction w with
  | nil => intro acc rest _; simp
  | cons c w ih =>
    intro acc rest h
    rw [List.cons_append, lexFrom, lexStep, if_pos (h c (by simp))]
    rw [List.nil_append, ih _ _ fun x hx => h x (by simp [hx])]
    simp

theorem quoted_run (t : Text) : ∀ acc rest, '\x00' ∉ t →
    lexFrom (.quoted acc) (escape t ++ '`' :: rest) = lexFrom (.quotedEnd (acc ++ t)) rest := by
  induction t with
  | nil => intro acc rest _; simp [escape, lexFrom, lexStep]
  | cons c t ih =>
    intro acc rest h
    have hc : c ≠ '\x00' := fun e => h (by simp [e])
    have ht : '\x00' ∉ t := fun e => h (by simp [e])
    by_cases hq : c = '`'
    · subst hq
      have : escape ('`' :: t) = '`' :: '`' :: escape t := by rw [escape, if_pos rfl]
      rw [this]
      simp only [List.cons_append, lexFrom, lexStep, if_true, List.nil_append]
      rw [ih _ _ ht]; simp
    · have : escape (c :: t) = c :: escape t := by rw [escape, if_neg hq]
      rw [this]
      simp only [List.cons_append, lexFrom, lexStep, if_neg hq, if_neg hc, List.nil_append]
      rw [ih _ _ ht]; simp

theorem begins_digit {c : Char} (h : c.isDigit = true) : begins c = ([], .int (digitVal c) [c]) := by
  have : c ≠ ' ' := by rintro rfl; revert h; decide
  simp [begins, this, h]

/-- `t` reads as the tokens, before a separator (or, if `k`, before anything). -/
def Reads (k : Bool) (t : Text) (toks : List Tok) : Prop :=
  ∀ rest, (k = true ∨ Sep rest) → lexFrom .start (t ++ rest) = toks ++ lexFrom .start rest

theorem Reads.weaken {k : Bool} {t : Text} {toks : List Tok} (h : Reads true t toks) : Reads k t toks :=
  fun rest _ => h rest (.inl rfl)

theorem Reads.append {k : Bool} {t t' : Text} {l l' : List Tok} (h : Reads true t l) (h' : Reads k t' l') :
    Reads k (t ++ t') (l ++ l') := fun rest hr => by
  rw [List.append_assoc, h _ (.inl rfl), h' _ hr, List.append_assoc]

/-- The text begins with a separator. -/
def Parts (t : Text) : Prop := ∃ c r, t = c :: r ∧ (c = ' ' ∨ c = ',' ∨ c = ')')

theorem Reads.part {k k' : Bool} {t t' : Text} {l l' : List Tok} (h : Reads k t l) (hp : Parts t')
    (h' : Reads k' t' l') : Reads k' (t ++ t') (l ++ l') := fun rest hr => by
  obtain ⟨c, r, rfl, hc⟩ := hp
  rw [List.append_assoc, h (c :: r ++ rest) (.inr (.inr ⟨c, r ++ rest, rfl, hc⟩)), h' _ hr, List.append_assoc]

theorem reads_decimal (n : Nat) : Reads false (decimal n) [.num n] := by
  intro rest hr
  obtain ⟨h1, h2, h3⟩ := decimal_facts n
  have hs : Sep rest := by simpa using hr
  cases hd : decimal n with
  | nil => exact absurd hd h3
  | cons c w =>
    rw [hd] at h1 h2
    rw [List.cons_append, lex_start, begins_digit (h1 c (by simp))]
    rw [List.nil_append, int_run w _ _ _ fun x hx => h1 x (by simp [hx])]
    have : fold10 (digitVal c) w = n := by rw [← h2]; simp [fold10]
    rw [this]
    refine lex_sep rfl ?_ hs
    rintro x (rfl | rfl | rfl) <;> rfl

theorem reads_minus {t : Text} {toks : List Tok} (h : Reads false t toks) {c : Char} {r : Text}
    (ht : t = c :: r) (hc : c.isDigit = true) : Reads false ('-' :: t) (.op ['-'] :: toks) := by
  intro rest hr
  subst ht
  have hne : c ≠ '-' := by rintro rfl; revert hc; decide
  have : lexFrom .start ('-' :: (c :: r ++ rest)) = .op ['-'] :: lexFrom .start (c :: r ++ rest) := by
    rw [lex_start]
    have hb : begins '-' = ([], .minus) := rfl
    rw [hb]
    simp only [List.cons_append, List.nil_append]
    rw [lexFrom, lexStep, if_neg hne]
    rfl
  rw [List.cons_append, this, h rest hr]; rfl

theorem reads_int (n : Int) : ∃ toks, Reads false (intText n) toks ∧ intPieces n = toks.map .tok ∧
    ∀ t ∈ toks, ∀ x, t ≠ .param x := by
  obtain ⟨h1, -, h3⟩ := decimal_facts n.natAbs
  by_cases hn : n < 0
  · refine ⟨[.op ['-'], .num n.natAbs], ?_, by simp [intPieces, hn], by simp⟩
    rw [intText, if_pos hn]
    cases hd : decimal n.natAbs with
    | nil => exact absurd hd h3
    | cons c w =>
      exact reads_minus (hd ▸ reads_decimal _) rfl (h1 c (by simp [hd]))
  · refine ⟨[.num n.natAbs], ?_, by simp [intPieces, hn], by simp⟩
    rw [intText, if_neg hn]; exact reads_decimal _

/-- A number with an exponent, without its sign. -/
theorem reads_expo {ds fs es : Text} {eneg : Bool} (hd : ds ≠ []) (he : es ≠ [])
    (hall : ∀ c ∈ ds ++ fs ++ es, c.isDigit = true) :
    Reads false (ds ++ (if fs = [] then [] else '.' :: fs) ++ 'e' :: (if eneg then ['-'] else []) ++ es)
      [.float (ds ++ (if fs = [] then [] else '.' :: fs) ++ 'e' :: (if eneg then ['-'] else []) ++ es)] := by
  intro rest hr
  have hs : Sep rest := by simpa using hr
  obtain ⟨c, w, rfl⟩ := List.exists_cons_of_ne_nil hd
  obtain ⟨x, es, rfl⟩ := List.exists_cons_of_ne_nil he
  have d1 : c.isDigit = true := hall c (by simp)
  have d2 : ∀ c ∈ w, c.isDigit = true := fun y hy => hall y (by simp [hy])
  have d3 : ∀ c ∈ fs, c.isDigit = true := fun y hy => hall y (by simp [hy])
  have d4 : x.isDigit = true := hall x (by simp)
  have d5 : ∀ c ∈ es, c.isDigit = true := fun y hy => hall y (by simp [hy])
  have hx : x ≠ '-' ∧ x ≠ '+' := by constructor <;> (rintro rfl; revert d4; decide)
  -- from the exponent on
  have tail : ∀ acc, lexFrom (.expo acc) ((if eneg then ['-'] else []) ++ (x :: es) ++ rest)
      = .float (acc ++ ((if eneg then ['-'] else []) ++ (x :: es))) :: lexFrom .start rest := by
    intro acc
    have fin : ∀ acc, lexFrom (.expoDigits acc) (es ++ rest) = .float (acc ++ es) :: lexFrom .start rest := by
      intro acc
      rw [expo_run es _ _ d5]
      refine lex_sep rfl ?_ hs
      rintro y (rfl | rfl | rfl) <;> rfl
    cases eneg with
    | true =>
      have s1 : lexStep (.expo acc) '-' = ([], .expoNeg (acc ++ ['-'])) := rfl
      have s2 : lexStep (.expoNeg (acc ++ ['-'])) x = ([], .expoDigits (acc ++ ['-'] ++ [x])) := by
        rw [lexStep, if_pos d4]
      simp only [if_true, List.cons_append, List.nil_append, lexFrom, s1, s2]
      rw [fin]; simp
    | false =>
      simp only [Bool.false_eq_true, if_false, List.cons_append, List.nil_append, lexFrom, lexStep, d4,
        if_true]
      rw [fin]; simp
  have key : ∀ n acc, lexFrom (.int n acc)
      ((if fs = [] then [] else '.' :: fs) ++ 'e' :: ((if eneg then ['-'] else []) ++ (x :: es) ++ rest))
      = .float (acc ++ (if fs = [] then [] else '.' :: fs) ++ 'e' :: ((if eneg then ['-'] else []) ++ (x :: es)))
        :: lexFrom .start rest := by
    intro n acc
    by_cases hf : fs = []
    · subst hf
      rw [if_pos rfl, List.nil_append, List.append_nil, lexFrom]
      have : lexStep (.int n acc) 'e' = ([], .expo (acc ++ ['e'])) := rfl
      rw [this, List.nil_append, tail]; simp
    · rw [if_neg hf, List.cons_append, lexFrom]
      have : lexStep (.int n acc) '.' = ([], .frac (acc ++ ['.'])) := rfl
      rw [this, List.nil_append, frac_run fs _ _ d3, lexFrom]
      have : lexStep (.frac (acc ++ ['.'] ++ fs)) 'e' = ([], .expo (acc ++ ['.'] ++ fs ++ ['e'])) := rfl
      rw [this, List.nil_append, tail]; simp
  have e1 : (c :: w) ++ (if fs = [] then [] else '.' :: fs) ++ 'e' :: (if eneg then ['-'] else []) ++ (x :: es)
      ++ rest = c :: (w ++ ((if fs = [] then [] else '.' :: fs)
        ++ 'e' :: ((if eneg then ['-'] else []) ++ (x :: es) ++ rest))) := by simp
  rw [e1, lex_start, begins_digit d1, List.nil_append, int_run w _ _ _ d2, key]
  simp

theorem floatPieces_minus (t : Text) : floatPieces ('-' :: t) = [.tok (.op ['-']), .tok (.float t)] := rfl

theorem floatPieces_digit {c : Char} (h : c.isDigit = true) (t : Text) :
    floatPieces (c :: t) = [.tok (.float (c :: t))] := by
  have hne : c ≠ '-' := by rintro rfl; revert h; decide
  unfold floatPieces
  split
  · rename_i heq; exact absurd (List.cons.inj heq).1 hne
  · rfl

theorem reads_float {t : Text} (h : FloatText t) :
    ∃ toks, Reads false t toks ∧ floatPieces t = toks.map .tok ∧ ∀ t ∈ toks, ∀ x, t ≠ .param x := by
  obtain ⟨neg, ds, fs, es, eneg, h1, h2, h3, rfl⟩ := h
  have hr := reads_expo (eneg := eneg) h1 h2 h3
  obtain ⟨c, w, rfl⟩ := List.exists_cons_of_ne_nil h1
  have hc : c.isDigit = true := h3 c (by simp)
  simp only [List.cons_append, List.append_assoc] at hr ⊢
  cases neg with
  | true => exact ⟨_, reads_minus hr rfl hc, rfl, by simp⟩
  | false => exact ⟨_, hr, floatPieces_digit hc _, by simp⟩

theorem reads_name {t : Text} (h : '\x00' ∉ t) : Reads false ('`' :: (escape t ++ ['`'])) [.name t] := by
  intro rest hr
  have hs : Sep rest := by simpa using hr
  have : ('`' :: (escape t ++ ['`'])) ++ rest = '`' :: (escape t ++ '`' :: rest) := by simp
  rw [this, lex_start]
  have hb : begins '`' = ([], .quoted []) := rfl
  rw [hb, List.nil_append, quoted_run t [] rest h, List.nil_append]
  refine lex_sep rfl ?_ hs
  rintro y (rfl | rfl | rfl) <;> rfl

/-- A quoted name before a dot. -/
theorem reads_name_dot {t : Text} (h : '\x00' ∉ t) :
    Reads true ('`' :: (escape t ++ ['`']) ++ ['.']) [.name t, .punct '.'] := by
  intro rest _
  have : ('`' :: (escape t ++ ['`']) ++ ['.']) ++ rest = '`' :: (escape t ++ '`' :: '.' :: rest) := by simp
  rw [this, lex_start]
  have hb : begins '`' = ([], .quoted []) := rfl
  rw [hb, List.nil_append, quoted_run t [] _ h, List.nil_append]
  rfl

theorem reads_param {w : Text} (h : ∀ c ∈ w, idChar c = true) : Reads false ('$' :: w) [.param w] := by
  intro rest hr
  have hs : Sep rest := by simpa using hr
  rw [List.cons_append, lex_start]
  have hb : begins '$' = ([], .param []) := rfl
  rw [hb, List.nil_append, param_run w _ _ h, List.nil_append]
  refine lex_sep rfl ?_ hs
  rintro y (rfl | rfl | rfl) <;> rfl

end SqlText
end Mentat
