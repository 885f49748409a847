import Verif.Model.Ffi
import Verif.Props.Lookup
import Verif.Props.Built
import Verif.Props.Bound
/-
C99: values pass through the foreign interface unchanged.  C100: the parts of results are reached
through it, and beyond them there is nothing.
-/
namespace Mentat.Ffi

open CC

/-! ### Texts and keywords -/

theorem fromC_text {t : Text} (h : nul ∉ t) : fromC (.text t) = .ok t := by
  show Res.ok (t.takeWhile (· ≠ nul)) = _
  congr 1
  induction t with
  | nil => rfl
  | cons c r ih =>
    rw [List.takeWhile_cons_of_pos (by simpa using fun e : c = nul => h (by simp [e])),
      ih fun hm => h (List.mem_cons_of_mem _ hm)]

theorem split_none : ∀ {s : Text}, '/' ∉ s → splitChars (· = '/') s = [s]
  | [], _ => rfl
  | c :: r, h => by
    have h1 : ¬ c = '/' := fun e => h (by simp [e])
    have h2 : '/' ∉ r := fun e => h (List.mem_cons_of_mem _ e)
    unfold splitChars
    rw [if_neg (by simpa using h1), split_none h2]

theorem split_first : ∀ {s r : Text}, '/' ∉ s → splitChars (· = '/') (s ++ '/' :: r) = s :: splitChars (· = '/') r
  | [], r, _ => by simp [splitChars]
  | c :: s, r, h => by
    have h1 : ¬ c = '/' := fun e => h (by simp [e])
    have h2 : '/' ∉ s := fun e => h (List.mem_cons_of_mem _ e)
    rw [List.cons_append]
    conv => lhs; unfold splitChars
    rw [if_neg (by simpa using h1), split_first h2]

theorem split_cases (s : Text) : '/' ∉ s ∨ ∃ a r, s = a ++ '/' :: r ∧ '/' ∉ a := by
  induction s with
  | nil => exact .inl (by simp)
  | cons c s ih =>
    by_cases hc : c = '/'
    · exact .inr ⟨[], s, by simp [hc], by simp⟩
    · rcases ih with h | ⟨a, r, rfl, h⟩
      · exact .inl (by simp [h, Ne.symm hc])
      · exact .inr ⟨c :: a, r, rfl, by simp [h, Ne.symm hc]⟩

/-- The keyword of a text: what stands before the first slash, without colons in front, and what stands
between it and the second or the end. -/
theorem kw_iff {t : Text} {k : Keyword} : kwFromString t = .ok k ↔
    k.ns ≠ [] ∧ k.name ≠ [] ∧ '/' ∉ k.ns ∧ '/' ∉ k.name ∧
    (t.dropWhile (· = ':') = k.ns ++ '/' :: k.name ∨ ∃ r, t.dropWhile (· = ':') = k.ns ++ '/' :: k.name ++ '/' :: r) := by
  have key : ∀ ns name : Text, (NName.namespaced ns name).bind (fun n => Res.ok n.keyword) = .ok k ↔
      ns ≠ [] ∧ name ≠ [] ∧ k = ⟨ns, name⟩ := by
    intro ns name
    unfold NName.namespaced
    by_cases h1 : name = []
    · simp [h1, Res.bind]
    · by_cases h2 : ns = []
      · simp [h1, h2, Res.bind]
      · rw [if_neg h1, if_neg h2]
        have : NName.keyword ⟨ns ++ '/' :: name, ns.length⟩ = ⟨ns, name⟩ := by
          have : 0 < ns.length := List.length_pos_iff.2 h2
          simp [NName.keyword, NName.parts, this]
        simp only [Res.bind, this, Res.ok.injEq, ne_eq, h1, h2, not_false_iff, true_and]
        exact eq_comm
  unfold kwFromString
  generalize t.dropWhile (· = ':') = u
  rcases split_cases u with hu | ⟨a, r, rfl, ha⟩
  · rw [split_none hu]
    constructor
    · intro h; cases h
    · rintro ⟨-, -, -, -, rfl | ⟨r, rfl⟩⟩ <;> exact absurd (by simp) hu
  · rw [split_first ha]
    have hinj : ∀ (a b c d : Text), '/' ∉ a → '/' ∉ b → a ++ '/' :: c = b ++ '/' :: d → a = b ∧ c = d := by
      intro a b c d ha hb e
      have h1 := split_first (r := c) ha
      have h2 := split_first (r := d) hb
      rw [e, h2] at h1
      have : a = b := (List.cons.inj h1).1.symm
      subst this
      exact ⟨rfl, (List.cons.inj (List.append_cancel_left e)).2⟩
    rcases split_cases r with hr | ⟨b, r', rfl, hb⟩
    · rw [split_none hr]
      dsimp only
      rw [key]
      constructor
      · rintro ⟨h1, h2, rfl⟩
        exact ⟨h1, h2, ha, hr, .inl rfl⟩
      · rintro ⟨h1, h2, h3, h4, h5 | ⟨r', h5⟩⟩
        · obtain ⟨rfl, rfl⟩ := hinj _ _ _ _ ha h3 h5
          exact ⟨h1, h2, rfl⟩
        · rw [List.append_assoc] at h5
          obtain ⟨-, rfl⟩ := hinj _ _ _ _ ha h3 h5
          exact absurd (by simp) hr
    · rw [split_first hb]
      dsimp only
      rw [key]
      constructor
      · rintro ⟨h1, h2, rfl⟩
        exact ⟨h1, h2, ha, hb, .inr ⟨r', by simp⟩⟩
      · rintro ⟨h1, h2, h3, h4, h5 | ⟨r'', h5⟩⟩
        · obtain ⟨-, e⟩ := hinj _ _ _ _ ha h3 h5
          exact absurd (e ▸ by simp) h4
        · rw [List.append_assoc] at h5
          obtain ⟨rfl, e⟩ := hinj _ _ _ _ ha h3 h5
          obtain ⟨rfl, -⟩ := hinj _ _ _ _ hb h4 e
          exact ⟨h1, h2, rfl⟩

theorem display_keyword {k : Keyword} (h : k.ns ≠ []) : k.nname.displayKeyword = ':' :: (k.ns ++ '/' :: k.name) := by
  simp [NName.displayKeyword, NName.display, Keyword.nname, h]

/-! ### C99 -/

/-- What is given is of a form that the interface gives back: UTF-8 without NUL, a keyword written with
one colon, one slash and two parts, sixteen bytes, and no timestamp but 0. -/
def Given : CVal → Prop
  | .string s => ∃ t, s = .text t ∧ nul ∉ t
  | .keyword s => ∃ ns name, s = .text (':' :: (ns ++ '/' :: name)) ∧ nul ∉ ns ++ name ∧ ns ≠ [] ∧ name ≠ [] ∧
      '/' ∉ ns ∧ '/' ∉ name ∧ ns.head? ≠ some ':'
  | .uuid b => ∃ l, b = some l ∧ l.length = 16 ∧ ∀ x ∈ l, x < 256
  | .timestamp n => n = 0
  | _ => True

/-- A `char *` is text up to the first NUL; bytes are bytes. -/
def CVal.Wf : CVal → Prop
  | .string (.text t) => nul ∉ t
  | .keyword (.text t) => nul ∉ t
  | .uuid (some l) => l.length = 16 ∧ ∀ x ∈ l, x < 256
  | _ => True

theorem toBytes_ofBytes : ∀ (n : Nat) (l : List Nat), l.length = n → (∀ x ∈ l, x < 256) → toBytes n (ofBytes l) = l := by
  intro n
  induction n with
  | zero => intro l h _; rw [List.length_eq_zero_iff.1 h]; rfl
  | succ n ih =>
    intro l h hl
    obtain ⟨x, l', rfl⟩ : ∃ x l', l = l' ++ [x] := by
      rcases List.eq_nil_or_concat l with rfl | ⟨l', x, rfl⟩
      · cases h
      · exact ⟨x, l', by simp⟩
    have hx : x < 256 := hl x (by simp)
    have e : ofBytes (l' ++ [x]) = ofBytes l' * 256 + x := by simp [ofBytes]
    rw [e, toBytes, show (ofBytes l' * 256 + x) / 256 = ofBytes l' by omega,
      show (ofBytes l' * 256 + x) % 256 = x by omega, ih l' (by simpa using h) fun y hy => hl y (by simp [hy])]

theorem truncated (n : Int) : n = 1000000 * Int.tdiv n 1000000 + Int.tmod n 1000000 ∧
    Int.tmod n 1000000 < 1000000 ∧ -1000000 < Int.tmod n 1000000 ∧ (Int.tdiv n 1000000 = n → n = 0) := by
  have h := Int.mul_tdiv_add_tmod n 1000000
  have h1 := Int.tmod_lt_of_pos n (b := 1000000) (by omega)
  have h2 := Int.tmod_lt_of_pos (-n) (b := 1000000) (by omega)
  rw [Int.neg_tmod] at h2
  generalize Int.tdiv n 1000000 = d at *
  refine ⟨h.symm, h1, by omega, fun e => ?_⟩
  subst e
  rcases Int.le_total 0 d with hp | hp
  · have := Int.tmod_nonneg 1000000 hp
    omega
  · have := Int.tmod_nonneg (a := -d) 1000000 (by omega)
    rw [Int.neg_tmod] at this
    omega

theorem seconds_of (n : Int) : (DateTime.fromMicros n).toMicros / 1000000 = Int.tdiv n 1000000 := by
  simp only [DateTime.fromMicros, DateTime.toMicros]
  rw [Int.mul_ediv_cancel _ (by decide)]
  obtain ⟨-, h1, h2, -⟩ := truncated n
  omega

theorem typed_string (s : CString) : (CVal.string s).typed = (fromC s).bind fun t => .ok (.string t) := rfl

theorem typed_keyword (s : CString) : (CVal.keyword s).typed =
    (fromC s).bind fun t => (kwFromString t).bind fun k => .ok (.keyword k) := rfl

/-- C99, exactly: of the values that can be given, those and only those of the form `Given` come back as
they were given; the type is always that of the function used. -/
theorem C99_same_partial {c : CVal} (hc : c.Wf) {v : TypedValue} (h : c.typed = .ok v) :
    takeAs v.valueType (.scalar v) = .ok c ↔ Given c := by
  cases c with
  | long n => cases h; simp [takeAs, intoLong, unwrapConversion, Res.bind, TypedValue.valueType, Given]
  | ref n => cases h; simp [takeAs, intoEntid, unwrapConversion, Res.bind, TypedValue.valueType, Given]
  | boolean b => cases h; cases b <;> simp [takeAs, intoBoolean, unwrapConversion, Res.bind, TypedValue.valueType, Given]
  | double d => cases h; simp [takeAs, intoDouble, unwrapConversion, Res.bind, TypedValue.valueType, Given]
  | timestamp n =>
    cases h
    simp only [takeAs, intoTimestamp, unwrapConversion, Res.bind, TypedValue.valueType, Given, Res.ok.injEq,
      CVal.timestamp.injEq, seconds_of]
    exact ⟨(truncated n).2.2.2, fun h => by subst h; rfl⟩
  | uuid b =>
    cases b with
    | none => cases h
    | some l =>
      cases h
      have e := toBytes_ofBytes 16 l hc.1 hc.2
      simp only [takeAs, intoUuid, unwrapConversion, Res.bind, TypedValue.valueType, Given, e, true_iff]
      exact ⟨l, rfl, hc⟩
  | string s =>
    cases s with
    | null => cases h
    | notUtf8 =>
      cases h
      simp [takeAs, intoString, toC, Res.bind, TypedValue.valueType, Given]
    | text t =>
      have hc : nul ∉ t := hc
      rw [typed_string, fromC_text hc] at h
      cases h
      simp [takeAs, intoString, toC, hc, Res.bind, TypedValue.valueType, Given]
  | keyword s =>
    simp only [typed_keyword, Res.bind_ok_iff] at h
    obtain ⟨t, h1, k, h2, h3⟩ := h
    cases h3
    obtain ⟨k1, k2, k3, k4, k5⟩ := kw_iff.1 h2
    have hns : k.ns.head? ≠ some ':' := by
      have : (t.dropWhile (· = ':')).head? = k.ns.head? := by
        rcases k5 with e | ⟨r, e⟩ <;> rw [e] <;> cases hk : k.ns <;> simp_all
      rw [← this]
      intro e
      have := List.head?_dropWhile_not (fun c => decide (c = ':')) t
      rw [e] at this
      simp at this
    cases s with
    | null => cases h1
    | notUtf8 =>
      cases h1
      simp at k5
    | text u =>
      have hc : nul ∉ u := hc
      rw [fromC_text hc] at h1
      cases h1
      show (toC k.nname.displayKeyword).bind (fun s => Res.ok (CVal.keyword s)) = _ ↔ _
      have hn : nul ∉ ':' :: (k.ns ++ '/' :: k.name) := by
        intro hm
        have hm : nul ∈ k.ns ++ '/' :: k.name := by
          rcases List.mem_cons.1 hm with e | e
          · exact absurd e (by decide)
          · exact e
        have hd : nul ∈ t.dropWhile (· = ':') → nul ∈ t := (List.dropWhile_sublist _).mem
        refine hc (hd ?_)
        rcases k5 with e | ⟨r, e⟩ <;> rw [e]
        · exact hm
        · exact List.mem_append_left _ hm
      rw [display_keyword k1, toC, if_neg hn]
      simp only [Res.bind, Res.ok.injEq, CVal.keyword.injEq, CString.text.injEq, Given]
      constructor
      · intro e
        refine ⟨k.ns, k.name, e.symm, ?_, k1, k2, k3, k4, hns⟩
        intro hm
        refine hn (List.mem_cons_of_mem _ ?_)
        simp only [List.mem_append, List.mem_cons] at hm ⊢
        rcases hm with hm | hm
        · exact .inl hm
        · exact .inr (.inr hm)
      · rintro ⟨ns, name, rfl, -, g1, g2, g3, g4, g5⟩
        have : (':' :: (ns ++ '/' :: name)).dropWhile (· = ':') = ns ++ '/' :: name := by
          rw [List.dropWhile_cons_of_pos (by simp)]
          cases ns with
          | nil => exact absurd rfl g1
          | cons c r =>
            rw [List.cons_append, List.dropWhile_cons_of_neg]
            simpa using g5
        have hk : kwFromString (':' :: (ns ++ '/' :: name)) = .ok ⟨ns, name⟩ :=
          kw_iff.2 ⟨g1, g2, g3, g4, .inl this⟩
        rw [h2] at hk
        cases hk
        rfl

/-- C99: a value of the form `Given` can be given, and comes back. -/
theorem C99_given {c : CVal} (h : Given c) :
    ∃ v, c.typed = .ok v ∧ valueTypeOf (.scalar v) = .ok v.valueType ∧ takeAs v.valueType (.scalar v) = .ok c := by
  have hw : c.Wf := by
    cases c with
    | string s => obtain ⟨t, rfl, h⟩ := h; exact h
    | keyword s =>
      obtain ⟨ns, name, rfl, h, -⟩ := h
      show nul ∉ _
      simp only [List.mem_cons, List.mem_append, not_or] at h ⊢
      exact ⟨by decide, h.1, by decide, h.2⟩
    | uuid b => obtain ⟨l, rfl, h⟩ := h; exact h
    | _ => trivial
  suffices ∃ v, c.typed = .ok v by
    obtain ⟨v, hv⟩ := this
    exact ⟨v, hv, rfl, (C99_same_partial hw hv).2 h⟩
  cases c with
  | string s =>
    obtain ⟨t, rfl, h⟩ := h
    exact ⟨.string t, by rw [typed_string, fromC_text h]; rfl⟩
  | keyword s =>
    obtain ⟨ns, name, rfl, -, g1, g2, g3, g4, g5⟩ := h
    have : (':' :: (ns ++ '/' :: name)).dropWhile (· = ':') = ns ++ '/' :: name := by
      rw [List.dropWhile_cons_of_pos (by simp)]
      cases ns with
      | nil => exact absurd rfl g1
      | cons c r =>
        rw [List.cons_append, List.dropWhile_cons_of_neg]
        simpa using g5
    have hk : kwFromString (':' :: (ns ++ '/' :: name)) = .ok ⟨ns, name⟩ := kw_iff.2 ⟨g1, g2, g3, g4, .inl this⟩
    exact ⟨.keyword ⟨ns, name⟩, by rw [typed_keyword, fromC_text hw]; simp only [Res.bind, hk]⟩
  | uuid b => obtain ⟨l, rfl, h⟩ := h; exact ⟨_, rfl⟩
  | _ => exact ⟨_, rfl⟩

/-- C99: a value is never taken as one of another type. -/
theorem C99_typed {t : ValueType} {c : Cell} {x : CVal} (h : takeAs t c = .ok x) : valueTypeOf c = .ok t := by
  cases c with
  | structured => cases t <;> cases h
  | scalar v => cases v <;> cases t <;> first | rfl | cases h

/-- C99: a value can be taken as one of the type that is reported for it, unless it is a text with a NUL. -/
theorem C99_reported {t : ValueType} {c : Cell} (h : valueTypeOf c = .ok t) (hs : ∀ s, c = .scalar (.string s) → nul ∉ s)
    (hk : ∀ k, c = .scalar (.keyword k) → nul ∉ k.nname.displayKeyword) : ∃ x, takeAs t c = .ok x := by
  cases c with
  | structured => cases h
  | scalar v =>
    obtain rfl : v.valueType = t := by cases h; rfl
    cases v with
    | string s =>
      have := hs s rfl
      simp [takeAs, TypedValue.valueType, intoString, toC, this, Res.bind]
    | keyword k =>
      have := hk k rfl
      simp [takeAs, TypedValue.valueType, intoKw, toC, this, Res.bind]
    | _ => exact ⟨_, rfl⟩

/-- C99 fails for timestamps: they are given in microseconds and taken in seconds.  None but 0 comes
back. -/
theorem C99_fails_timestamp (n : Int) : ∃ v, (CVal.timestamp n).typed = .ok v ∧
    takeAs .instant (.scalar v) = .ok (.timestamp (Int.tdiv n 1000000)) ∧ (n ≠ 0 → Int.tdiv n 1000000 ≠ n) := by
  refine ⟨_, rfl, ?_, fun h e => h ((truncated n).2.2.2 e)⟩
  simp only [takeAs, intoTimestamp, unwrapConversion, Res.bind, seconds_of]

/-- C99 fails for a keyword with two slashes: the rest is dropped, so that it means another keyword. -/
theorem C99_fails_keyword {ns name rest : Text} (h1 : ns ≠ []) (h2 : name ≠ []) (h3 : '/' ∉ ns) (h4 : '/' ∉ name)
    (h5 : ns.head? ≠ some ':') :
    kwFromString (':' :: (ns ++ '/' :: name ++ '/' :: rest)) = kwFromString (':' :: (ns ++ '/' :: name)) := by
  have hd : ∀ r, (':' :: (ns ++ r)).dropWhile (· = ':') = ns ++ r := by
    intro r
    rw [List.dropWhile_cons_of_pos (by simp)]
    cases ns with
    | nil => exact absurd rfl h1
    | cons c r' =>
      rw [List.cons_append, List.dropWhile_cons_of_neg]
      simpa using h5
  have e1 : kwFromString (':' :: (ns ++ '/' :: name)) = .ok ⟨ns, name⟩ := kw_iff.2 ⟨h1, h2, h3, h4, .inl (hd _)⟩
  have e2 : kwFromString (':' :: (ns ++ '/' :: name ++ '/' :: rest)) = .ok ⟨ns, name⟩ :=
    kw_iff.2 ⟨h1, h2, h3, h4, .inr ⟨rest, by rw [List.append_assoc, hd]⟩⟩
  rw [e1, e2]

/-- C99 fails for a keyword without a slash: a panic. -/
theorem C99_fails_plain {t : Text} (h : '/' ∉ t) : kwFromString t = .panic := by
  unfold kwFromString
  rw [split_none fun hm => h ((List.dropWhile_sublist _).mem hm)]

/-- C99 fails for text that is not UTF-8: the empty text is taken for it. -/
theorem C99_fails_utf8 : (CVal.string .notUtf8).typed = .ok (.string []) := rfl

/-- C99 fails for a string with a NUL, which a transaction written in Rust can assert: taking it is a
panic. -/
theorem C99_fails_nul {t : Text} (h : nul ∈ t) : takeAs .string (.scalar (.string t)) = .panic := by
  simp [takeAs, intoString, toC, h, Res.bind]

/-! ### Through the store -/

/-- C99: a value of the form `Given`, if it is not the nil UUID and the parts of a keyword are valid, is
read from the table it was written to as it was given. -/
theorem C99_stored_partial {c : CVal} (h : Given c) {v : TypedValue} (hv : c.typed = .ok v)
    (hu : v ≠ .uuid 0) (hk : ∀ k, v = .keyword k → ValidPart k.ns ∧ ValidPart k.name) :
    ∃ w, fromSql v.toSql.1 v.toSql.2 = .ok w ∧ takeAs v.valueType (.scalar w) = .ok c := by
  obtain ⟨v', h1, -, h2⟩ := C99_given h
  obtain rfl := Res.ok.inj (hv.symm.trans h1)
  refine ⟨v, (C01_round_trip_partial ?_).2 ⟨hu, ?_, fun k e => (hk k e).1.1⟩, h2⟩
  · cases v with
    | keyword k => exact ⟨.inr (hk k rfl).1, (hk k rfl).2⟩
    | uuid u =>
      cases c <;> simp [CVal.typed, Res.bind_ok_iff] at hv
      obtain ⟨l, rfl, hl, hb⟩ := h
      cases hv
      show ofBytes l < 2 ^ 128
      have e := toBytes_ofBytes 16 l hl hb
      have : ∀ (n : Nat) (l : List Nat), l.length = n → (∀ x ∈ l, x < 256) → ofBytes l < 256 ^ n := by
        intro n
        induction n with
        | zero => intro l h _; rw [List.length_eq_zero_iff.1 h]; decide
        | succ n ih =>
          intro l h hl
          rcases List.eq_nil_or_concat l with rfl | ⟨l', x, rfl⟩
          · cases h
          · have hx : x < 256 := hl x (by simp)
            have := ih l' (by simpa using h) fun y hy => hl y (by simp [hy])
            have e : ofBytes (l'.concat x) = ofBytes l' * 256 + x := by simp [ofBytes]
            rw [e, Nat.pow_succ]
            omega
      exact this 16 l hl hb
    | _ => trivial
  · intro us e
    subst e
    cases c with
    | timestamp n =>
      have h : n = 0 := h
      subst h
      cases hv
      exact .inl (by decide)
    | string s => simp [typed_string, Res.bind_ok_iff] at hv
    | keyword s => simp [typed_keyword, Res.bind_ok_iff] at hv
    | uuid b => cases b <;> simp [CVal.typed] at hv
    | _ => simp [CVal.typed] at hv

theorem forward_ident {k : Keyword} (hk : k.name.head? ≠ some '_') : (EntidOrIdent.ident k).unreversed = .ok none := by
  refine backward_iff.1 ?_
  obtain ⟨ns, name⟩ := k
  cases name with
  | nil => rfl
  | cons c r =>
    have : c ≠ '_' := by simpa using hk
    simp [Backward, this]

/-- What a single assertion through the interface is to the transactor. -/
theorem single_terms {db : Db} {now : Int} {op : Op} {e : Entid} {k : Keyword} {v : TypedValue} {r}
    (hk : k.name.head? ≠ some '_')
    (ht : ∀ a at_, AMap.get db.schema.identMap k = some a → db.schema.attr a = some at_ → at_.valueType = v.valueType)
    (h : transactEntities db now [TxEntity.addOrRetract op (.entid (.entid e)) (.ident k) (.atom v)] = .ok r) :
    ∃ a, AMap.get db.schema.identMap k = some a ∧ transactTerms db now [⟨op, .inl e, a, .inl v⟩] [] = .ok r := by
  obtain ⟨-, s, terms, h1, h2, h3⟩ := transactEntities_ok.1 h
  have hu := forward_ident hk
  rw [stage1_eq, run_cons] at h1
  obtain ⟨⟨s', front⟩, h1, hrun⟩ := Res.bind_ok_iff.1 h1
  unfold TxEnv.step at h1
  simp only [hu] at h1
  obtain ⟨_, e0, h1⟩ := Res.bind_ok_iff.1 h1
  cases e0
  obtain ⟨a, ha, h1⟩ := Res.bind_ok_iff.1 h1
  obtain ⟨at_, hat, h1⟩ := Res.bind_ok_iff.1 h1
  have ha' : AMap.get db.schema.identMap k = some a := by
    simp only [TxEnv.attribute, Schema.requireEntid, startEnv] at ha
    split at ha
    · next h => rw [h, Res.ok.inj ha]
    · cases ha
  have hat' : db.schema.attr a = some at_ := by
    simp only [Schema.requireAttr, startEnv] at hat
    split at hat
    · next h => rw [h, Res.ok.inj hat]
    · cases hat
  have hvt := ht a at_ ha' hat'
  have htmp : (if at_.valueType = .ref then TransactableValue.asTempid v else none) = none := by
    split
    · next h => rw [hvt] at h; cases v <;> first | rfl | cases h
    · rfl
  have hinto : TransactableValue.intoTypedValue (startEnv db).schema v at_.valueType = .ok v := if_pos hvt.symm
  rw [htmp] at h1
  dsimp only at h1
  rw [hinto] at h1
  simp only [TxEnv.finish, Res.bind_ok_iff, TxEnv.termE] at h1
  obtain ⟨_, ev, _, ⟨⟨_, _⟩, h1, he⟩, e'⟩ := h1
  cases ev
  split at h1
  · cases h1
    cases he
    cases e'
    rw [List.append_nil, run_nil] at hrun
    cases hrun
    refine ⟨a, ha', ?_⟩
    have h2' : Res.ok [(⟨op, .inl e, a, .inl v⟩ : TTerm)] = .ok terms := h2
    cases h2'
    exact h3
  · cases h1

/-- C99, through a store: what is added through the interface under an attribute of cardinality one is what
is looked up through it afterwards, and taken as what it is, it is what was given. -/
theorem C99_transacted_partial {c : CVal} (h : Given c) {kw : CString} {t : Text} {k : Keyword} {b : TermBuilder} {e a : Entid}
    {db db' : Db} {now : Int} {rep : Report} {at_ : Attribute} (message : Err → Text) (fl : Floats) (ftId : Text → Int)
    (hkw : fromC kw = .ok t) (hk : kwFromString t = .ok k) (hname : k.name.head? ≠ some '_')
    (hb : builderAdd {} e kw c = .ok b) (htx : transactEntities db now b.terms = .ok (db', rep))
    (ha : AMap.get db.schema.identMap k = some a) (hat : db.schema.attr a = some at_)
    (htype : ∀ v, c.typed = .ok v → at_.valueType = v.valueType)
    (hr : ReachData db') (ha' : AMap.get db'.schema.identMap k = some a)
    (hone : ∃ at', db'.schema.attr a = some at' ∧ at'.multival = false)
    (cache : Option AttrCache) (hu : Known.cachedForward ⟨db'.schema, cache⟩ a = false) :
    ∃ v, storeValueForAttribute message fl ⟨db'.schema, cache⟩ (db'.tables ftId) e kw = .ok (some (.scalar v), none) ∧
      takeAs at_.valueType (.scalar v) = .ok c := by
  obtain ⟨v, hv, -, ht⟩ := C99_given h
  refine ⟨v, ?_, by rw [htype v hv]; exact ht⟩
  have hb' : b.terms = [TxEntity.addOrRetract .add (.entid (.entid e)) (.ident k) (.atom v)] := by
    simp only [builderAdd, hkw, hk, hv, Res.bind] at hb
    cases hb
    rfl
  rw [hb'] at htx
  obtain ⟨a1, ha1, htx⟩ := single_terms hname (fun a2 at2 h1 h2 => by
    rw [ha] at h1; cases h1; rw [hat] at h2; cases h2; exact htype v hv) htx
  rw [ha] at ha1
  cases ha1
  obtain ⟨σ, -, -, -, hadd, -⟩ := C20_effect_partial htx
  have hhas : Has db'.store.rows e a v := by
    refine hadd ⟨.add, .inl e, a, .inl v⟩ (by simp) ⟨.add, e, a, v⟩ ⟨rfl, rfl, rfl, rfl⟩ rfl (fun t ht => by cases ht) ?_
    intro _ _ _ x' hx' y' hy' hop
    rw [List.mem_singleton.1 hx'] at hy'
    exact absurd (hy'.1.symm.trans hop) (by simp)
  obtain ⟨-, o, ho, h1, h2⟩ := C84_uncached hr fl ftId cache e a hu
  obtain ⟨at', hat', hm⟩ := hone
  have : o = some v := by
    cases o with
    | none => exact absurd hhas (h2 rfl v)
    | some w => rw [C14_one_partial hr.kept e a v w at' hat' hm hhas (h1 w rfl)]
  subst this
  simp only [storeValueForAttribute, hkw, hk, Res.bind]
  have : lookupValueFor fl ⟨db'.schema, cache⟩ (db'.tables ftId) e k = .ok (some v) := by
    simp only [lookupValueFor, lookupAttribute, ha', Res.bind]
    exact ho
  rw [this]
  rfl

/-- C99: what is retracted through the interface is not looked up through it afterwards. -/
theorem C99_retracted_partial {c : CVal} {v : TypedValue} (hv : c.typed = .ok v) {kw : CString} {t : Text} {k : Keyword}
    {b : TermBuilder} {e a : Entid} {db db' : Db} {now : Int} {rep : Report} {at_ : Attribute} (message : Err → Text)
    (fl : Floats) (ftId : Text → Int)
    (hkw : fromC kw = .ok t) (hk : kwFromString t = .ok k) (hname : k.name.head? ≠ some '_')
    (hb : builderRetract {} e kw c = .ok b) (htx : transactEntities db now b.terms = .ok (db', rep))
    (ha : AMap.get db.schema.identMap k = some a) (hat : db.schema.attr a = some at_) (htype : at_.valueType = v.valueType)
    (hr : ReachData db') (ha' : AMap.get db'.schema.identMap k = some a)
    (cache : Option AttrCache) (hu : Known.cachedForward ⟨db'.schema, cache⟩ a = false) :
    ∃ o, storeValueForAttribute message fl ⟨db'.schema, cache⟩ (db'.tables ftId) e kw = .ok (o, none) ∧
      o ≠ some (.scalar v) ∧ ∀ w, o = some (.scalar w) → Has db'.store.rows e a w := by
  have hb' : b.terms = [TxEntity.addOrRetract .retract (.entid (.entid e)) (.ident k) (.atom v)] := by
    simp only [builderRetract, hkw, hk, hv, Res.bind] at hb
    cases hb
    rfl
  rw [hb'] at htx
  obtain ⟨a1, ha1, htx⟩ := single_terms hname (fun a2 at2 h1 h2 => by
    rw [ha] at h1; cases h1; rw [hat] at h2; cases h2; exact htype) htx
  rw [ha] at ha1
  cases ha1
  obtain ⟨σ, -, -, hret, -, -⟩ := C20_effect_partial htx
  have hhas : ¬ Has db'.store.rows e a v :=
    hret ⟨.retract, .inl e, a, .inl v⟩ (by simp) ⟨.retract, e, a, v⟩ ⟨rfl, rfl, rfl, rfl⟩ rfl
  obtain ⟨-, o, ho, h1, h2⟩ := C84_uncached hr fl ftId cache e a hu
  refine ⟨o.map .scalar, ?_, ?_, ?_⟩
  · simp only [storeValueForAttribute, hkw, hk, Res.bind]
    have : lookupValueFor fl ⟨db'.schema, cache⟩ (db'.tables ftId) e k = .ok o := by
      simp only [lookupValueFor, lookupAttribute, ha', Res.bind]
      exact ho
    rw [this]
    rfl
  · intro h
    cases o with
    | none => cases h
    | some w => cases h; exact hhas (h1 v rfl)
  · intro w h
    cases o with
    | none => cases h
    | some w' => cases h; exact h1 w rfl

/-- Several calls of `query_builder_bind_*`. -/
def bindAll (q : QueryBuilder) : List (CString × CVal) → Res QueryBuilder
  | [] => .ok q
  | p :: r => (queryBind q p.1 p.2).bind fun q => bindAll q r

/-- The last of the values given for a variable. -/
def lastGiven (x : Text) : List (CString × CVal) → Option CVal
  | [] => none
  | p :: r => (lastGiven x r).or (if fromC p.1 = .ok x then some p.2 else none)

theorem bindAll_ok : ∀ (ps : List (CString × CVal)) {q b : QueryBuilder}, SortedVars q.values → bindAll q ps = .ok b →
    b.query = q.query ∧ b.types = q.types ∧ ∀ x, (lastGiven x ps = none → AMap.get b.values x = AMap.get q.values x) ∧
      ∀ c, lastGiven x ps = some c → ∃ v, c.typed = .ok v ∧ AMap.get b.values x = some v
  | [], q, b, _, h => by
    cases h
    exact ⟨rfl, rfl, fun x => ⟨fun _ => rfl, fun c hc => by cases hc⟩⟩
  | p :: r, q, b, hs, h => by
    obtain ⟨q', h1, h2⟩ := Res.bind_ok_iff.1 h
    obtain ⟨y, hy, h1⟩ := Res.bind_ok_iff.1 h1
    obtain ⟨v, hv, h1⟩ := Res.bind_ok_iff.1 h1
    obtain ⟨-, rfl⟩ := bindValue_ok h1
    obtain ⟨e1, e2, e3⟩ := bindAll_ok r (sorted_putVar y v hs) h2
    refine ⟨e1, e2, fun x => ?_⟩
    have hg : AMap.get (putVar y v q.values) x = if y = x then some v else AMap.get q.values x := get_putVar y v _ x hs
    cases hl : lastGiven x r with
    | some c =>
      refine ⟨fun h => by simp [lastGiven, hl] at h, fun c' hc' => ?_⟩
      have : c = c' := by simpa [lastGiven, hl] using hc'
      subst this
      exact (e3 x).2 c hl
    | none =>
      have hb := (e3 x).1 hl
      by_cases hx : y = x
      · subst hx
        refine ⟨fun h => by simp [lastGiven, hl, hy] at h, fun c' hc' => ?_⟩
        have : p.2 = c' := by simpa [lastGiven, hl, hy] using hc'
        subst this
        exact ⟨v, hv, by rw [hb]; simpa using hg⟩
      · refine ⟨fun _ => by rw [hb]; simpa [hx] using hg, fun c' hc' => ?_⟩
        simp [lastGiven, hl, hy, hx] at hc'

/-- C99: after any calls of `query_builder_bind_*` that succeed, the builder has for every variable the value last given for
it, which taken back is what was given, has none for the others, and has the query and no types. -/
theorem C99_bound_partial {text : Text} {ps : List (CString × CVal)} {b : QueryBuilder}
    (h : bindAll (QueryBuilder.new text) ps = .ok b) :
    b.query = text ∧ b.types = [] ∧ ∀ x, (lastGiven x ps = none → AMap.get b.values x = none) ∧
      ∀ c, lastGiven x ps = some c → Given c →
        ∃ v, AMap.get b.values x = some v ∧ takeAs v.valueType (.scalar v) = .ok c := by
  obtain ⟨e1, e2, e3⟩ := bindAll_ok ps (sorted_new text).values h
  refine ⟨e1, e2, fun x => ⟨fun hx => (e3 x).1 hx, fun c hc hg => ?_⟩⟩
  obtain ⟨v, hv, h1⟩ := (e3 x).2 c hc
  obtain ⟨v', hv', -, h2⟩ := C99_given hg
  obtain rfl := Res.ok.inj (hv.symm.trans hv')
  exact ⟨v, h1, h2⟩

theorem C99_bound_example : ∃ b, bindAll (QueryBuilder.new "[:find ?e :in ?v ?w :where [?e :x/one ?v] [?e :x/many ?w]]".toList)
    [(.text "?v".toList, .string (.text "a".toList)), (.text "?w".toList, .long 1), (.text "?v".toList, .string (.text "b".toList))] = .ok b ∧
    lastGiven "?v".toList [(.text "?v".toList, .string (.text "a".toList)), (.text "?w".toList, .long 1),
      (.text "?v".toList, .string (.text "b".toList))] = some (.string (.text "b".toList)) := ⟨_, rfl, by decide⟩

/-- What the examples check of a store. -/
def changedB (op : Op) (v : TypedValue) (db : Db) : Bool :=
  match transactEntities db 0 [TxEntity.addOrRetract op (.entid (.entid e1)) (.ident (kw "x" "one")) (.atom v)] with
  | .ok (db', _) =>
    decide (runDataFrom [([⟨op, .inl e1, xOne, .inl v⟩], [])] db = some db') &&
    decide (AMap.get db.schema.identMap (kw "x" "one") = some xOne) &&
    decide (AMap.get db'.schema.identMap (kw "x" "one") = some xOne) &&
    ((db.schema.attr xOne).any fun at_ => decide (at_.valueType = .string)) &&
    ((db'.schema.attr xOne).any fun at_ => !at_.multival)
  | _ => false

/-- The hypotheses of `C99_retracted_partial` hold after a history, of the string `b` that is there. -/
theorem C99_retracted_example : ∃ (db db' : Db) (rep : Report) (b : TermBuilder),
    builderRetract {} e1 (.text ":x/one".toList) (.string (.text "b".toList)) = .ok b ∧
    transactEntities db 0 b.terms = .ok (db', rep) ∧
    Has db.store.rows e1 xOne (str "b") ∧
    ∃ o, storeValueForAttribute (fun _ => []) QueryEx.floats ⟨db'.schema, none⟩ (db'.tables fun _ => 1) e1 (.text ":x/one".toList) =
        .ok (o, none) ∧ o ≠ some (.scalar (str "b")) := by
  have h : (changedDb.any fun db => changedB .retract (str "b") db && hasB db e1 xOne (str "b")) = true := by decide +kernel
  cases hd : changedDb with
  | none => rw [hd] at h; cases h
  | some db =>
    rw [hd, Option.any_some, Bool.and_eq_true, hasB_iff] at h
    obtain ⟨h, hh⟩ := h
    have hr := runDataFrom_reach (.boot (Int.le_refl 0) bootDb_eq) hd
    unfold changedB at h
    split at h
    · next db' rep htx =>
      simp only [Bool.and_eq_true, decide_eq_true_eq, Option.any_eq_true, Bool.not_eq_true'] at h
      obtain ⟨⟨⟨⟨h1, h2⟩, h3⟩, at_, h4, h5⟩, h6⟩ := h
      have hb : builderRetract {} e1 (.text ":x/one".toList) (.string (.text "b".toList)) =
          .ok (({} : TermBuilder).retract (.entid (.entid e1)) (.ident (kw "x" "one")) (.atom (str "b"))) := by kernel_rfl
      refine ⟨db, db', rep, _, hb, htx, hh, ?_⟩
      obtain ⟨o, g1, g2, -⟩ := C99_retracted_partial (c := .string (.text "b".toList)) (v := str "b") (by kernel_rfl) (t := ":x/one".toList)
        (k := kw "x" "one") (fun _ => []) QueryEx.floats (fun _ => 1)
        (by kernel_rfl) (by kernel_rfl) (by decide) hb htx h2 h4 h5 (runDataFrom_reach hr h1) h3 none rfl
      exact ⟨o, g1, g2⟩
    · cases h

/-- The hypotheses of `C99_transacted_partial` hold after a history, of the string `c` that replaces
another. -/
theorem C99_transacted_example : ∃ (db db' : Db) (rep : Report) (b : TermBuilder) (at_ : Attribute),
    builderAdd {} e1 (.text ":x/one".toList) (.string (.text "c".toList)) = .ok b ∧
    transactEntities db 0 b.terms = .ok (db', rep) ∧
    Has db.store.rows e1 xOne (str "b") ∧
    db.schema.attr xOne = some at_ ∧
    ∃ v, storeValueForAttribute (fun _ => []) QueryEx.floats ⟨db'.schema, none⟩ (db'.tables fun _ => 1) e1 (.text ":x/one".toList) =
        .ok (some (.scalar v), none) ∧
      takeAs at_.valueType (.scalar v) = .ok (.string (.text "c".toList)) := by
  have h : (changedDb.any fun db => changedB .add (str "c") db && hasB db e1 xOne (str "b")) = true := by decide +kernel
  cases hd : changedDb with
  | none => rw [hd] at h; cases h
  | some db =>
    rw [hd, Option.any_some, Bool.and_eq_true, hasB_iff] at h
    obtain ⟨h, hh⟩ := h
    have hr := runDataFrom_reach (.boot (Int.le_refl 0) bootDb_eq) hd
    unfold changedB at h
    split at h
    · next db' rep htx =>
      simp only [Bool.and_eq_true, decide_eq_true_eq, Option.any_eq_true, Bool.not_eq_true'] at h
      obtain ⟨⟨⟨⟨h1, h2⟩, h3⟩, at_, h4, h5⟩, h6⟩ := h
      have hb : builderAdd {} e1 (.text ":x/one".toList) (.string (.text "c".toList)) =
          .ok (({} : TermBuilder).add (.entid (.entid e1)) (.ident (kw "x" "one")) (.atom (str "c"))) := by kernel_rfl
      refine ⟨db, db', rep, _, at_, hb, htx, hh, h4, ?_⟩
      exact C99_transacted_partial (c := .string (.text "c".toList)) (t := ":x/one".toList) (k := kw "x" "one") ⟨_, rfl, by decide⟩ _ _ _
        (by kernel_rfl) (by kernel_rfl) (by decide) hb htx h2 h4
        (by intro v hv; rw [h5]; cases hv; rfl) (runDataFrom_reach hr h1) h3 h6 none rfl
    · cases h

/-- Not every value is refused that is not of the attribute's type: a string under an attribute of references is
a tempid, and what is stored is a reference to a new entity. -/
theorem C99_fails_reference {db : Db} {now : Int} {e : Entid} {k : Keyword} {t : Text} {a : Entid} {at_ : Attribute}
    (hk : k.name.head? ≠ some '_') (ha : AMap.get db.schema.identMap k = some a) (hat : db.schema.attr a = some at_)
    (ht : at_.valueType = .ref) (hp : (startEnv db).parts.containsEntid e = true) (hx : ∃ x, db.parts.tx.allocate 1 = .ok x) :
    transactEntities db now [TxEntity.addOrRetract .add (.entid (.entid e)) (.ident k) (.atom (TypedValue.string t))] =
      transactTerms db now [⟨.add, .inl e, a, .inr (.external t)⟩] [.external t] := by
  have hs : (startEnv db).stage1 [TxEntity.addOrRetract .add (.entid (.entid e)) (.ident k) (.atom (TypedValue.string t))] =
      .ok ((({} : Stage1).internTempId (.external t)).push ⟨.add, .inl e, a, .inr (.tempId (.external t))⟩) := by
    rw [stage1_eq, run_cons]
    unfold TxEnv.step
    simp only [forward_ident hk]
    have h1 : (startEnv db).attribute (.ident k) = .ok a := by
      show (match AMap.get db.schema.identMap k with | some e => Res.ok e | none => _) = _
      rw [ha]
    have h2 : (startEnv db).schema.requireAttr a = .ok at_ := by
      show (match db.schema.attr a with | some e => Res.ok e | none => _) = _
      rw [hat]
    rw [show ∀ (f : Option EntidOrIdent → Res (Stage1 × List (TxEntity TypedValue))), (Res.ok none).bind f = f none from fun _ => rfl]
    dsimp only
    rw [h1]
    show (((startEnv db).schema.requireAttr a).bind _).bind _ = _
    rw [h2]
    rw [show ∀ (f : Attribute → Res (Stage1 × List (TxEntity TypedValue))), (Res.ok at_).bind f = f at_ from fun _ => rfl]
    rw [if_pos ht]
    show Res.bind (Res.bind (TxEnv.finish _ _ _ _ _ _) _) _ = _
    unfold TxEnv.finish TxEnv.termE
    dsimp only
    rw [if_pos hp]
    rfl
  obtain ⟨⟨n, p'⟩, hx⟩ := hx
  unfold transactEntities
  rw [hx]
  obtain ⟨rfl, rfl⟩ := allocate_one hx
  show ((startEnv db).stage1 _).bind _ = _
  rw [hs]
  rfl

theorem C99_fails_reference_example : ∃ at_, AMap.get bootDb.schema.identMap (kw "db" "valueType") = some DB_VALUE_TYPE ∧
    bootDb.schema.attr DB_VALUE_TYPE = some at_ ∧ at_.valueType = .ref ∧ (startEnv bootDb).parts.containsEntid 1 = true ∧
    ∃ x, bootDb.parts.tx.allocate 1 = .ok x := by
  have h : (decide (AMap.get bootDb.schema.identMap (kw "db" "valueType") = some DB_VALUE_TYPE) &&
      ((bootDb.schema.attr DB_VALUE_TYPE).any fun at_ => decide (at_.valueType = .ref)) &&
      (startEnv bootDb).parts.containsEntid 1 && (match bootDb.parts.tx.allocate 1 with | .ok _ => true | _ => false)) = true := by
    decide +kernel
  simp only [Bool.and_eq_true, decide_eq_true_eq, Option.any_eq_true] at h
  obtain ⟨⟨⟨h1, at_, h2, h3⟩, h4⟩, h5⟩ := h
  refine ⟨at_, h1, h2, h3, h4, ?_⟩
  split at h5
  · next x hx => exact ⟨x, hx⟩
  · cases h5

/-- A keyword, a UUID and a string of the form `Given`. -/
theorem C99_example : Given (.keyword (.text ":person/name".toList)) ∧ Given (.uuid (some (List.range 16))) ∧
    Given (.string (.text "Grüße".toList)) := by
  refine ⟨⟨"person".toList, "name".toList, ?_⟩, ⟨List.range 16, rfl, by decide, by decide⟩, ⟨_, rfl, by decide⟩⟩
  decide

/-! ### C100 -/

theorem usize_of {i : Int} (h : 0 ≤ i) (h' : i < 2 ^ 31) : usize i = i.toNat := by
  unfold usize
  rw [Int.emod_eq_of_lt h (by omega)]

theorem usize_neg {i : Int} (h : i < 0) (h' : -(2 ^ 31) ≤ i) : usize i = 2 ^ 64 - i.natAbs := by
  unfold usize
  have : i % 2 ^ 64 = i + 2 ^ 64 := by
    rw [← Int.add_emod_right, Int.emod_eq_of_lt (by omega) (by omega)]
  rw [this]
  omega

/-- C100: the row at an index, for all the indexes a caller can give and all results that fit into memory:
the values from `i * width` on, if there is such a row; below 0 there is none, except that -1 is a panic. -/
theorem C100_row_partial {α : Type} (r : RelResult α) {i : Int} (h : -(2 ^ 31) ≤ i) (h' : i < 2 ^ 31)
    (hw : 0 < r.width) (hl : r.values.length + r.width * 2 ^ 31 < 2 ^ 64) :
    rowAtIndex r i =
      if i = -1 then .panic
      else if 0 ≤ i ∧ r.width * (i.toNat + 1) ≤ r.values.length then
        .ok (some ((r.values.drop (r.width * i.toNat)).take r.width))
      else .ok none := by
  unfold rowAtIndex
  by_cases h0 : 0 ≤ i
  · have hi : usize i = i.toNat := usize_of h0 h'
    have hi' : i.toNat + 1 ≤ 2 ^ 31 := by omega
    have hb : r.width * (i.toNat + 1) ≤ r.width * 2 ^ 31 := Nat.mul_le_mul_left _ hi'
    have e1 : r.width * ((usize i + 1) % 2 ^ 64) % 2 ^ 64 = r.width * (i.toNat + 1) := by
      rw [hi, Nat.mod_eq_of_lt (a := i.toNat + 1) (by omega), Nat.mod_eq_of_lt (by omega)]
    have hd : r.width * (i.toNat + 1) = r.width * i.toNat + r.width := Nat.mul_succ _ _
    have e2 : r.width * usize i % 2 ^ 64 = r.width * i.toNat := by
      rw [hi, Nat.mod_eq_of_lt (by omega)]
    simp only [e1, e2]
    rw [if_neg (show ¬ i = -1 by omega)]
    by_cases hx : r.width * (i.toNat + 1) ≤ r.values.length
    · rw [if_neg (by omega), if_neg (by omega), if_pos ⟨h0, hx⟩, hd, Nat.add_sub_cancel_left]
    · rw [if_pos (by omega), if_neg (fun h => hx h.2)]
  · have hi := usize_neg (by omega) h
    obtain ⟨n, hn⟩ : ∃ n : Nat, i = -(n : Int) - 1 := ⟨(-i - 1).toNat, by omega⟩
    subst hn
    have hi : usize (-(n : Int) - 1) = 2 ^ 64 - (n + 1) := by rw [hi]; omega
    have hn : n + 1 ≤ 2 ^ 31 := by omega
    by_cases hz : n = 0
    · subst hz
      rw [if_pos (show -((0 : Nat) : Int) - 1 = -1 by omega)]
      have e1 : r.width * ((usize (-((0 : Nat) : Int) - 1) + 1) % 2 ^ 64) % 2 ^ 64 = 0 := by rw [hi]; simp
      simp only [e1]
      rw [if_neg (by omega), if_pos]
      rw [hi]
      have : r.width * (2 ^ 64 - (0 + 1)) = 2 ^ 64 * (r.width - 1) + (2 ^ 64 - r.width) := by
        obtain ⟨w, hw'⟩ : ∃ w, r.width = w + 1 := ⟨r.width - 1, by omega⟩
        rw [hw'] at hl ⊢
        rw [Nat.add_mul, Nat.add_sub_cancel]
        omega
      rw [this, Nat.mul_add_mod, Nat.mod_eq_of_lt (by omega)]
      omega
    · rw [if_neg (show ¬ -(n : Int) - 1 = -1 by omega), if_neg (fun h : 0 ≤ -(n : Int) - 1 ∧ _ => absurd h.1 (by omega))]
      rw [if_pos]
      have hn' : (usize (-(n : Int) - 1) + 1) % 2 ^ 64 = 2 ^ 64 - n := by
        rw [hi, show 2 ^ 64 - (n + 1) + 1 = 2 ^ 64 - n by omega, Nat.mod_eq_of_lt (by omega)]
      rw [hn']
      have hwn : r.width * n ≤ r.width * 2 ^ 31 := Nat.mul_le_mul_left _ (by omega)
      have hpos : 0 < r.width * n := Nat.mul_pos hw (by omega)
      have : r.width * (2 ^ 64 - n) = 2 ^ 64 * (r.width - 1) + (2 ^ 64 - r.width * n) := by
        have h1 : r.width * (2 ^ 64 - n) + r.width * n = r.width * 2 ^ 64 := by
          rw [← Nat.mul_add]; congr 1; omega
        have h2 : 2 ^ 64 * (r.width - 1) + 2 ^ 64 = r.width * 2 ^ 64 := by
          obtain ⟨w, hw'⟩ : ∃ w, r.width = w + 1 := ⟨r.width - 1, by omega⟩
          rw [hw', Nat.add_sub_cancel]; omega
        omega
      rw [this, Nat.mul_add_mod, Nat.mod_eq_of_lt (Nat.sub_lt (by omega) hpos)]
      show r.values.length < 2 ^ 64 - r.width * n
      omega

/-- After `n` calls of `typed_value_result_set_iter_next`. -/
def afterCalls {α : Type} : Nat → Nat × List α → Nat × List α
  | 0, s => s
  | n + 1, s => afterCalls n (resultSetNext s).2

theorem afterCalls_eq {α : Type} (w : Nat) : ∀ (n : Nat) (l : List α), afterCalls n (w, l) = (w, l.drop (w * n))
  | 0, l => by simp [afterCalls]
  | n + 1, l => by
    have : (resultSetNext (w, l)).2 = (w, l.drop w) := by cases l <;> simp [resultSetNext]
    rw [afterCalls, this, afterCalls_eq w n, List.drop_drop, Nat.mul_succ, Nat.add_comm]

/-- C100: the iterator over a result gives the rows in their order, the `n`-th call the `n`-th, and nothing
after the last. -/
theorem C100_iterator {α : Type} (r : RelResult α) (hw : r.width ≠ 0) (n : Nat) :
    ∃ s, resultSetIter r = .ok s ∧ (resultSetNext (afterCalls n s)).1 =
      if r.width * n < r.values.length then some ((r.values.drop (r.width * n)).take r.width) else none := by
  refine ⟨_, if_neg hw, ?_⟩
  rw [afterCalls_eq]
  by_cases h : r.width * n < r.values.length
  · rw [if_pos h]
    cases hd : r.values.drop (r.width * n) with
    | nil => rw [List.drop_eq_nil_iff] at hd; omega
    | cons x l => rfl
  · rw [if_neg h, List.drop_eq_nil_iff.2 (by omega)]
    rfl

/-- C100: the value at an index, for all indexes: the value there, nothing below 0 and beyond the length, and
a panic at the length. -/
theorem C100_value_partial {α : Type} (l : List α) {i : Int} (h' : i < 2 ^ 31) :
    valueAtIndex l i =
      if i = l.length then .panic else if 0 ≤ i then .ok l[i.toNat]? else .ok none := by
  unfold valueAtIndex
  by_cases h0 : 0 ≤ i
  · rw [usize_of h0 h', if_pos h0]
    by_cases h1 : i = l.length
    · rw [if_pos h1, if_neg (by omega), List.getElem?_eq_none (by omega)]
    · rw [if_neg h1]
      by_cases h2 : i.toNat < l.length
      · rw [if_neg (by omega), List.getElem?_eq_getElem h2]
      · rw [if_pos (by omega), List.getElem?_eq_none (by omega)]
  · rw [if_pos (by omega), if_neg (by omega), if_neg h0]

/-- C100 is false of the value one beyond the last, which the functions for it document as null. -/
theorem C100_fails_value {α : Type} (l : List α) (h : l.length < 2 ^ 31) : valueAtIndex l l.length = .panic := by
  rw [C100_value_partial l (by omega), if_pos rfl]

/-- C100 is false of the row at -1. -/
theorem C100_fails_row {α : Type} (r : RelResult α) (hw : 0 < r.width)
    (hl : r.values.length + r.width * 2 ^ 31 < 2 ^ 64) : rowAtIndex r (-1) = .panic := by
  rw [C100_row_partial r (by omega) (by omega) hw hl, if_pos rfl]

theorem flatten_row {α : Type} {w : Nat} : ∀ (rows : List (List α)), (∀ r ∈ rows, r.length = w) → ∀ n,
    rows[n]? = if n < rows.length then some ((rows.flatten.drop (w * n)).take w) else none
  | [], _, n => by simp
  | r :: rows, h, 0 => by
    have : r.length = w := h r (by simp)
    simp [← this]
  | r :: rows, h, n + 1 => by
    have hr : r.length = w := h r (by simp)
    have := flatten_row rows (fun r hr => h r (by simp [hr])) n
    rw [List.getElem?_cons_succ, this, List.flatten_cons, List.drop_append,
      List.drop_eq_nil_of_le (show r.length ≤ w * (n + 1) by rw [hr, Nat.mul_succ]; omega)]
    simp [hr, Nat.mul_succ]

theorem length_flatten_rows {α : Type} {w : Nat} : ∀ (rows : List (List α)), (∀ r ∈ rows, r.length = w) →
    rows.flatten.length = w * rows.length
  | [], _ => by simp
  | r :: rows, h => by
    have hr : r.length = w := h r (by simp)
    rw [List.flatten_cons, List.length_append, hr, length_flatten_rows rows fun r hr => h r (by simp [hr])]
    simp [Nat.mul_succ, Nat.add_comm]

/-- C100: of a result made of rows, the row at an index is the row there, and nothing beyond the last; the iterator gives
the rows one by one, and then nothing. -/
theorem C100_rows_partial {α : Type} {w : Nat} (rows : List (List α)) (h : ∀ r ∈ rows, r.length = w) (hw : 0 < w)
    (hl : w * rows.length + w * 2 ^ 31 < 2 ^ 64) :
    (∀ i : Nat, i < 2 ^ 31 → rowAtIndex ⟨w, rows.flatten⟩ i = .ok rows[i]?) ∧
    ∃ s, resultSetIter ⟨w, rows.flatten⟩ = .ok s ∧ ∀ n, (resultSetNext (afterCalls n s)).1 = rows[n]? := by
  have hlen := length_flatten_rows rows h
  constructor
  · intro i hi
    rw [C100_row_partial ⟨w, rows.flatten⟩ (by omega) (by omega) hw (by rw [hlen]; exact hl), flatten_row rows h i,
      if_neg (by omega)]
    dsimp only
    rw [hlen, Int.toNat_natCast]
    by_cases hr : i < rows.length
    · rw [if_pos ⟨by omega, Nat.mul_le_mul_left w hr⟩, if_pos hr]
    · rw [if_neg (fun hx => hr (Nat.lt_of_mul_lt_mul_left (Nat.lt_of_lt_of_le (Nat.mul_lt_mul_of_pos_left (Nat.lt_succ_self i) hw) hx.2))),
        if_neg hr]
  · obtain ⟨s, hs, -⟩ := C100_iterator ⟨w, rows.flatten⟩ (by simpa using Nat.pos_iff_ne_zero.1 hw) 0
    refine ⟨s, hs, fun n => ?_⟩
    obtain ⟨s', hs', hn⟩ := C100_iterator ⟨w, rows.flatten⟩ (by simpa using Nat.pos_iff_ne_zero.1 hw) n
    obtain rfl := Res.ok.inj (hs.symm.trans hs')
    rw [hn, flatten_row rows h n]
    dsimp only
    rw [hlen]
    by_cases hr : n < rows.length
    · rw [if_pos (Nat.mul_lt_mul_of_pos_left hr hw), if_pos hr]
    · rw [if_neg (Nat.not_lt.2 (Nat.mul_le_mul_left w (Nat.not_lt.1 hr))), if_neg hr]

theorem C100_example : rowAtIndex ⟨2, [1, 2, 3, 4]⟩ 1 = .ok (some [3, 4]) ∧ rowAtIndex ⟨2, [1, 2, 3, 4]⟩ 2 = .ok none ∧
    rowAtIndex ⟨2, [1, 2, 3, 4]⟩ (-2) = .ok none ∧ rowAtIndex ⟨2, [1, 2, 3, 4]⟩ (-1) = .panic := by decide

/-- C100: a value taken out of a row by its index and type is the value at that index. -/
theorem C100_taken {t : ValueType} {l : List Cell} {i : Int} (h : 0 ≤ i) (h' : i < 2 ^ 31) {x : CVal} :
    valueAtIndexAs t l i = .ok x ↔ ∃ c, l[i.toNat]? = some c ∧ takeAs t c = .ok x := by
  unfold valueAtIndexAs
  rw [usize_of h h']
  cases l[i.toNat]? with
  | none => simp
  | some c => simp

end Mentat.Ffi
