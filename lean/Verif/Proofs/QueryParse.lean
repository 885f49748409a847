import Verif.Props.EdnParse
import Verif.Spec.QueryForms
/- Reading the printed form of a query: every rule on the text of a form it is meant for, and the
failure of the rules tried before it. -/
namespace Mentat
namespace QParse
open Edn EdnParse

/-! ### Whitespace -/

theorem skipF_skipF (b : Bool) (s : Text) : skipF false (skipF b s) = skipF b s := by
  induction s generalizing b with
  | nil => cases b <;> rfl
  | cons c r ih =>
    cases b with
    | true => simp only [skipF]; split <;> exact ih _
    | false =>
      simp only [skipF]
      split
      · exact ih _
      · split
        · exact ih _
        · rename_i h1 h2; simp [skipF, h1, h2]

theorem skip_skip (s : Text) : skip (skip s) = skip s := skipF_skipF false s

theorem skipF_length (b : Bool) (s : Text) : (skipF b s).length ≤ s.length := by
  induction s generalizing b with
  | nil => cases b <;> simp [skipF]
  | cons c r ih =>
    have h1 := ih true
    have h2 := ih false
    cases b <;> simp only [skipF] <;> (repeat' split) <;> simp only [List.length_cons] <;> omega

theorem skip_length (s : Text) : (skip s).length ≤ s.length := skipF_length false s

theorem skip_close {c : Char} (h : c = ')' ∨ c = ']') (r : Text) : skip (c :: r) = c :: r := by
  refine skip_delim_ne ?_ ?_ <;> rcases h with rfl | rfl <;> decide

/-! ### Literals -/

theorem lit_append (w rest : Text) : lit w (w ++ rest) = some rest := by
  induction w with
  | nil => rfl
  | cons c w ih => simp [lit, ih]

theorem expect_ok {w : String} {s rest : Text} {k : Text → PRes α} (h : s = w.toList ++ rest) :
    expect w s k = k rest := by
  unfold expect; rw [h, lit_append]

theorem expect_none {w : String} {s : Text} {k : Text → PRes α} (h : lit w.toList s = none) :
    expect w s k = .fail := by
  unfold expect; rw [h]

theorem expect_fail {w : String} {s : Text} {k : Text → PRes α} (h : lit w.toList s = none) :
    expect w s k = .fail := expect_none h

/-! ### Printing lists -/

theorem printList_append (l m : List Edn) : printList (l ++ m) = printList l ++ printList m := by
  induction l with
  | nil => simp [printList]
  | cons v l ih => simp [printList, ih]

theorem printList_delim (l : List Edn) {tail : Text} (h : Delim tail) : Delim (printList l ++ tail) := by
  cases l with
  | nil => simpa [printList] using h
  | cons v l => rw [printList]; exact Delim.space _

theorem skip_printList {v : Edn} (hv : Readable v) (l : List Edn) (tail : Text) :
    skip (printList (v :: l) ++ tail) = print v ++ (printList l ++ tail) := by
  rw [printList]
  simp only [List.cons_append, List.append_assoc]
  rw [skip_space, (print_starts hv).skip]

theorem readable_vector {l : List Edn} (h : Readable (.vector l)) : ∀ v ∈ l, Readable v := by
  cases h; assumption

theorem readable_list {l : List Edn} (h : Readable (.list l)) : ∀ v ∈ l, Readable v := by
  cases h; assumption

/-! ### Rules that read a form -/

/-- On the text of `v`, after any whitespace and before a delimiter, the rule gives `x` and takes the
whitespace that follows. -/
def Reads (R : Text → PRes α) (v : Edn) (x : α) : Prop :=
  ∀ s rest, skip s = print v ++ rest → Delim rest → R s = .ok x (skip rest)

/-- On the text of `v` the rule does not match. -/
def Misses (R : Text → PRes α) (v : Edn) : Prop :=
  ∀ s rest, skip s = print v ++ rest → Delim rest → R s = .fail

/-- The rule does not match at a closing bracket. -/
def Stops (R : Text → PRes α) : Prop := ∀ c r, (c = ')' ∨ c = ']') → R (c :: r) = .fail

theorem val_reads {v : Edn} (h : Readable v) : Reads (val) v v := by
  intro s rest hs hd
  have h1 : ∀ n, value (n + 1) s = value (n + 1) (skip s) := by
    intro n; rw [value, value, skip_skip]
  have hl := skip_length s
  unfold val
  rw [show 4 * s.length + 4 = (4 * s.length + 3) + 1 from rfl, h1, hs]
  refine value_print h _ _ hd ?_
  rw [hs] at hl
  simp only [List.length_append] at hl
  omega

theorem val_stops : Stops (val) := by
  intro c r h
  unfold val
  exact value_close (by simp only [List.length_cons]; omega) (by rcases h with h | h <;> simp [h]) r

theorem accept_reads {R} {v : Edn} {x : α} {g : α → Option β} {y : β} (h : Reads R v x) (hg : g x = some y) :
    Reads (fun s => accept (R s) g) v y := by
  intro s rest hs hd
  simp only [accept, bind, h s rest hs hd, hg]

theorem accept_misses {R} {v : Edn} {x : α} {g : α → Option β} (h : Reads R v x) (hg : g x = none) :
    Misses (fun s => accept (R s) g) v := by
  intro s rest hs hd
  simp only [accept, bind, h s rest hs hd, hg]

theorem accept_stops {R : Text → PRes α} (h : Stops R) (g : α → Option β) : Stops fun s => accept (R s) g := by
  intro c r hc
  simp only [accept, bind, h c r hc]

/-- `Misses` at a text that begins with a form. -/
theorem Misses.at_skip {R : Text → PRes α} {v : Edn} (h : Misses R v) (hv : Readable v) (l : List Edn)
    {tail : Text} (hd : Delim tail) : R (skip (printList (v :: l) ++ tail)) = .fail :=
  h _ _ (by rw [skip_skip, skip_printList hv]) (printList_delim l hd)

/-- A rule that reads every form of a list reads them all and stops where it does not match. -/
theorem manyN_reads {R : Text → PRes α} (l : List (Edn × α)) (hl : ∀ p ∈ l, Reads R p.1 p.2)
    (hv : ∀ p ∈ l, Readable p.1) {tail : Text} (hd : Delim tail) (hend : R (skip tail) = .fail) (n : Nat)
    (hn : l.length < n) :
    manyN R n (skip (printList (l.map (·.1)) ++ tail)) = .ok (l.map (·.2)) (skip tail) := by
  induction l generalizing n with
  | nil =>
    obtain ⟨m, rfl⟩ : ∃ m, n = m + 1 := ⟨n - 1, by omega⟩
    simp [manyN, printList, hend]
  | cons p l ih =>
    obtain ⟨m, rfl⟩ : ∃ m, n = m + 1 := ⟨n - 1, by omega⟩
    simp only [List.length_cons] at hn
    rw [List.map_cons, manyN, hl p (by simp) _ (printList (l.map (·.1)) ++ tail)
      (by rw [skip_skip, skip_printList (hv p (by simp))]) (printList_delim _ hd)]
    simp only [bind, List.map_cons]
    rw [ih (fun q hq => hl q (by simp [hq])) (fun q hq => hv q (by simp [hq])) m (by omega)]

theorem printList_length (l : List Edn) : l.length ≤ (printList l).length := by
  induction l with
  | nil => simp
  | cons v l ih => rw [printList]; simp only [List.length_cons, List.length_append]; omega

theorem many_reads {R : Text → PRes α} (l : List (Edn × α)) (hl : ∀ p ∈ l, Reads R p.1 p.2)
    (hv : ∀ p ∈ l, Readable p.1) {tail : Text} (hd : Delim tail) (hend : R (skip tail) = .fail) :
    many R (skip (printList (l.map (·.1)) ++ tail)) = .ok (l.map (·.2)) (skip tail) := by
  unfold many
  refine manyN_reads l hl hv hd hend _ ?_
  cases l with
  | nil => simp
  | cons p l =>
    rw [List.map_cons, skip_printList (hv p (by simp))]
    have h1 := printList_length (l.map (·.1))
    obtain ⟨c, r, h2, -⟩ := print_starts (hv p (by simp))
    simp only [List.length_append, h2, List.length_cons, List.length_map] at h1 ⊢
    omega

theorem many1_reads {R : Text → PRes α} (p : Edn × α) (l : List (Edn × α))
    (hl : ∀ q ∈ p :: l, Reads R q.1 q.2)
    (hv : ∀ q ∈ p :: l, Readable q.1) {s tail : Text} (hd : Delim tail) (hend : R (skip tail) = .fail)
    (hs : skip s = skip (printList ((p :: l).map (·.1)) ++ tail)) :
    many1 R s = .ok ((p :: l).map (·.2)) (skip tail) := by
  unfold many1
  rw [List.map_cons, skip_printList (hv p (by simp))] at hs
  rw [hl p (by simp) s _ hs (printList_delim _ hd)]
  simp only [bind]
  rw [many_reads l (fun q hq => hl q (by simp [hq])) (fun q hq => hv q (by simp [hq])) hd hend]
  rfl

/-! ### Variables, sources and the places of patterns -/

section

theorem varOf_var {x : Text} (h : IsVar x) : varOf (.plainSymbol x) = some x := by
  obtain ⟨t, rfl⟩ := h; simp [varOf, isVarSym]

theorem variable_reads {x : Text} (h : IsVar x) (hr : Readable (.plainSymbol x)) :
    Reads (variable_) (.plainSymbol x) x :=
  accept_reads (val_reads hr) (varOf_var h)

theorem variable_misses {v : Edn} (hr : Readable v) (h : varOf v = none) : Misses (variable_) v :=
  accept_misses (val_reads hr) h

theorem variable_stops : Stops (variable_) := accept_stops (val_stops) _

/-- A word of the grammar is a keyword that the reader takes. -/
theorem readable_kwd {s : String} {c : Char} {t : Text} (hs : s.toList = c :: t) (hc : isInitial c = true)
    (ht : ∀ d ∈ t, isSubsequent d = true) : Readable (kwdE s) := by
  refine .plainKeyword _ s.toList ?_ ⟨c, t, hs, hc, ht⟩
  simp [NName.plain, hs]

theorem constForm_srcOf (c : Const) : srcOf c.form = none := by cases c <;> rfl
theorem constForm_argOf (c : Const) : argOf c.form = some (.const c) := by cases c <;> rfl
theorem constForm_valOf (c : Const) : valOf c.form = some (.constant c) := by cases c <;> rfl

theorem isVar_ne {x : Text} (h : IsVar x) : x ≠ ['_'] ∧ isVarSym x = true ∧ isSrcSym x = false := by
  obtain ⟨t, rfl⟩ := h; simp [isVarSym, isSrcSym]

theorem nonVal_form {e : NonVal} (h : e.Ok) : nonValOf e.form = some e ∧ srcOf e.form = none := by
  cases e with
  | placeholder => decide
  | var x => simp [NonVal.form, nonValOf, srcOf, srcOfSym, isVar_ne h]
  | entid n => simp [NonVal.form, nonValOf, srcOf, show 0 ≤ n from h]
  | ident k => simp [NonVal.form, nonValOf, srcOf]

theorem val_form {v : Val} (h : v.Ok) : valOf v.form = some v := by
  cases v with
  | placeholder => decide
  | var x => simp [Val.form, valOf, isVar_ne h]
  | entidOrInteger n => rfl
  | identOrKeyword k => simp [Val.form, valOf, show k.isNamespaced = true from h]
  | constant c => exact constForm_valOf c

theorem src_form {s : Src} (h : ∀ n, s = .named n → n ≠ []) : srcOf s.form = some s := by
  cases s with
  | dflt => decide
  | named n =>
    have := h n rfl
    simp [Src.form, srcOf, srcOfSym, isSrcSym, this]

theorem toVal_form (e : NonVal) : e.toVal.form = e.form := by cases e <;> rfl

theorem toVal_toNonVal {e : NonVal} (h : e.Ok) : e.toVal.toNonVal = some e := by
  cases e with
  | entid n => simp [NonVal.toVal, Val.toNonVal, show 0 ≤ n from h]
  | _ => rfl

/-! ### Arguments -/

theorem fnArgN_stops (n : Nat) : Stops (fnArgN (n + 1)) := by
  intro c r hc
  have h1 := val_stops c r hc
  have h2 : lit "[".toList (c :: r) = none := by rcases hc with rfl | rfl <;> simp [lit]
  simp only [fnArgN, accept, h1, bind, EdnParse.PRes.orElse]
  rw [skip_close hc, expect_fail h2]

theorem fnArg_stops : Stops (fnArg) := by
  intro c r hc; exact fnArgN_stops _ c r hc

theorem forms_eq (l : List Arg) : Arg.forms l = l.map Arg.form := by
  induction l with
  | nil => rfl
  | cons a l ih => simp [Arg.forms, ih]

theorem oks_iff (l : List Arg) : Arg.Oks l ↔ ∀ a ∈ l, a.Ok := by
  induction l with
  | nil => simp [Arg.Oks]
  | cons a l ih => simp [Arg.Oks, ih]

theorem arg_atom {a : Arg} (h : a.Ok) (hv : ∀ l, a ≠ .vec l) : argOf a.form = some a := by
  cases a with
  | var x => simp [Arg.form, argOf, isVar_ne h]
  | src s =>
    cases s with
    | dflt => rfl
    | named n => simp only [Arg.Ok] at h; simp [Arg.form, Src.form, argOf, isSrcSym, srcOfSym, h]
  | int n => rfl
  | kw k => rfl
  | const c => exact constForm_argOf c
  | vec l => exact absurd rfl (hv l)

theorem fnArgN_atom {a : Arg} (h : a.Ok) (hv : ∀ l, a ≠ .vec l) (hr : Readable a.form) (n : Nat) :
    Reads (fnArgN (n + 1)) a.form a := by
  intro s rest hs hd
  have := accept_reads (val_reads hr) (arg_atom h hv) s rest hs hd
  simp only [fnArgN, this, EdnParse.PRes.orElse]

theorem print_vector (l : List Edn) (rest : Text) :
    print (.vector l) ++ rest = '[' :: (printList l ++ ' ' :: ']' :: rest) := by
  rw [print]; simp

theorem print_list (l : List Edn) (rest : Text) :
    print (.list l) ++ rest = '(' :: (printList l ++ ' ' :: ')' :: rest) := by
  rw [print]; simp

theorem delim_sp (s : Text) : Delim (' ' :: s) := Delim.space s

theorem skip_sp_close {c : Char} (h : c = ')' ∨ c = ']') (r : Text) : skip (' ' :: c :: r) = c :: r := by
  rw [skip_space, skip_close h]

/-- The size of an argument bounds the recursion it needs. -/
theorem fnArgN_reads (a : Arg) : ∀ n, a.Ok → Readable a.form → (print a.form).length < n →
    Reads (fnArgN n) a.form a := by
  match a with
  | .var x =>
    intro n h hr hn
    obtain ⟨m, rfl⟩ : ∃ m, n = m + 1 := ⟨n - 1, by omega⟩
    exact fnArgN_atom h (by simp) hr m
  | .src s =>
    intro n h hr hn
    obtain ⟨m, rfl⟩ : ∃ m, n = m + 1 := ⟨n - 1, by omega⟩
    exact fnArgN_atom h (by simp) hr m
  | .int i =>
    intro n h hr hn
    obtain ⟨m, rfl⟩ : ∃ m, n = m + 1 := ⟨n - 1, by omega⟩
    exact fnArgN_atom h (by simp) hr m
  | .kw k =>
    intro n h hr hn
    obtain ⟨m, rfl⟩ : ∃ m, n = m + 1 := ⟨n - 1, by omega⟩
    exact fnArgN_atom h (by simp) hr m
  | .const c =>
    intro n h hr hn
    obtain ⟨m, rfl⟩ : ∃ m, n = m + 1 := ⟨n - 1, by omega⟩
    exact fnArgN_atom h (by simp) hr m
  | .vec [] => intro n h; exact absurd rfl h.1
  | .vec (a :: l) =>
    intro n h hr hn s rest hs hd
    obtain ⟨m, rfl⟩ : ∃ m, n = m + 1 := ⟨n - 1, by omega⟩
    have ih : ∀ b ∈ a :: l, ∀ n, b.Ok → Readable b.form → (print b.form).length < n →
        Reads (fnArgN n) b.form b := fun b hb => fnArgN_reads b
    have hv := val_reads hr s rest hs hd
    have hmiss : accept (val s) argOf = .fail := by simp only [accept, bind, hv]; rfl
    simp only [Arg.form, forms_eq] at hs hr hn
    have hrl := readable_vector hr
    rw [print_vector] at hs
    have hok := (oks_iff (a :: l)).mp h.2
    have hlen : ∀ v ∈ (a :: l).map Arg.form, (print v).length < m := by
      have : ∀ (l : List Edn) v, v ∈ l → (print v).length < (printList l).length := by
        intro l
        induction l with
        | nil => simp
        | cons w l ih =>
          intro v hv
          rw [printList]
          simp only [List.length_cons, List.length_append]
          rcases List.mem_cons.mp hv with rfl | hv
          · omega
          · have := ih v hv; omega
      intro v hv
      have := this _ v hv
      rw [print] at hn
      simp only [List.length_cons, List.length_append, List.length_nil] at hn
      omega
    have hm : 0 < m := by have := hlen _ (List.mem_map_of_mem (List.mem_cons_self (a := a) (l := l))); omega
    have hmany := many1_reads (R := fnArgN m) (a.form, a) (l.map fun b => (b.form, b))
      (s := printList ((a :: l).map Arg.form) ++ ' ' :: ']' :: rest) (tail := ' ' :: ']' :: rest)
      (by
        intro q hq
        have hq' : q ∈ (a :: l).map fun b => (b.form, b) := by simpa using hq
        obtain ⟨b, hb, rfl⟩ := List.mem_map.mp hq'
        exact ih b hb m (hok b hb) (hrl _ (List.mem_map_of_mem hb)) (hlen _ (List.mem_map_of_mem hb)))
      (by
        intro q hq
        have hq' : q ∈ (a :: l).map fun b => (b.form, b) := by simpa using hq
        obtain ⟨b, hb, rfl⟩ := List.mem_map.mp hq'
        exact hrl _ (List.mem_map_of_mem hb))
      (delim_sp _)
      (by
        rw [skip_sp_close (Or.inr rfl)]
        obtain ⟨k, rfl⟩ : ∃ k, m = k + 1 := ⟨m - 1, by omega⟩
        exact fnArgN_stops k _ _ (Or.inr rfl))
      (by simp [Function.comp_def])
    simp only [fnArgN, hmiss, EdnParse.PRes.orElse, hs]
    rw [expect_ok (rest := printList ((a :: l).map Arg.form) ++ ' ' :: ']' :: rest) (by rfl), hmany]
    simp only [bind]
    rw [skip_sp_close (Or.inr rfl), expect_ok (rest := rest) (by rfl)]
    simp [Function.comp_def]
termination_by sizeOf a

theorem fnArg_reads {a : Arg} (h : a.Ok) (hr : Readable a.form) : Reads (fnArg) a.form a := by
  intro s rest hs hd
  refine fnArgN_reads a _ h hr ?_ s rest hs hd
  have := skip_length s
  rw [hs] at this
  simp only [List.length_append] at this
  omega

/-- The arguments of a function, up to the closing bracket. -/
theorem args_read {args : List Arg} (h : Arg.Oks args) (hr : ∀ v ∈ Arg.forms args, Readable v) (rest : Text) :
    many (fnArg) (skip (printList (Arg.forms args) ++ ' ' :: ')' :: rest)) = .ok args (')' :: rest) := by
  rw [forms_eq] at hr
  have hok := (oks_iff args).mp h
  have := many_reads (R := fnArg) (args.map fun b => (b.form, b))
    (tail := ' ' :: ')' :: rest)
    (by
      intro q hq
      obtain ⟨b, hb, rfl⟩ := List.mem_map.mp hq
      exact fnArg_reads (hok b hb) (hr _ (List.mem_map_of_mem hb)))
    (by
      intro q hq
      obtain ⟨b, hb, rfl⟩ := List.mem_map.mp hq
      exact hr _ (List.mem_map_of_mem hb))
    (delim_sp _)
    (by rw [skip_sp_close (Or.inl rfl)]; exact fnArg_stops _ _ (Or.inl rfl))
  rw [skip_sp_close (Or.inl rfl)] at this
  simpa [Function.comp_def, forms_eq] using this

theorem fnName_valid {f : Text} {ws : List String} (h : FnName f ws) (hr : Readable (.plainSymbol f)) : ValidName f := by
  cases hr with
  | plainSymbol _ h1 _ =>
    rcases h1 with h1 | h1 | h1
    · exact h1
    · exact absurd h1 h.2.1
    · exact absurd h1 h.1

theorem queryFunction_reads {f : Text} {ws : List String} (h : FnName f ws) (hr : Readable (.plainSymbol f)) :
    Reads queryFunction (.plainSymbol f) f := by
  intro s rest hs hd
  rw [print] at hs
  simp only [queryFunction, hs, symbolName_ok (fnName_valid h hr) hd]

/-- The words of the grammar do not begin a function's name. -/
theorem fnName_lit {f : Text} {ws : List String} (h : FnName f ws) {w : String} (hw : w ∈ ws) (hsp : ∀ c ∈ w.toList, c ∉ endChars)
    {rest : Text} (hd : Delim rest) : lit w.toList (f ++ rest) = none :=
  lit_none hsp hd (h.2.2 w hw)

/-! ### Bindings -/

theorem readable_sym {s : String} {c : Char} {t : Text} (hs : s.toList = c :: t) (hc : isInitial c = true)
    (ht : ∀ d ∈ t, isSubsequent d = true) (hn : NotReserved s.toList) : Readable (symE s) :=
  .plainSymbol _ (Or.inl ⟨c, t, hs, hc, ht⟩) hn

theorem print_sym (s : String) : print (symE s) = s.toList := by rw [symE, print]

theorem print_kwd (s : String) : print (kwdE s) = ':' :: s.toList := by
  rw [kwdE, print]; rfl

theorem symE_varOf {s : String} (h : s.toList.head? ≠ some '?') : varOf (symE s) = none := by
  simp [symE, varOf, isVarSym, h]

theorem varOrPlaceholder_reads {x : Option Text} (h : ∀ y, x = some y → IsVar y) (hr : Readable (placeForm x)) :
    Reads (varOrPlaceholder) (placeForm x) x := by
  intro s rest hs hd
  cases x with
  | some x =>
    have := variable_reads (h x rfl) hr s rest hs hd
    simp [varOrPlaceholder, this, bind, EdnParse.PRes.orElse]
  | none =>
    have := variable_misses hr (symE_varOf (by decide)) s rest hs hd
    rw [placeForm, print_sym] at hs
    simp only [varOrPlaceholder, this, bind, EdnParse.PRes.orElse]
    rw [expect_ok hs]

theorem varOrPlaceholder_stops : Stops (varOrPlaceholder) := by
  intro c r hc
  have h1 := variable_stops c r hc
  have h2 : lit "_".toList (c :: r) = none := by rcases hc with rfl | rfl <;> simp [lit]
  simp only [varOrPlaceholder, h1, bind, EdnParse.PRes.orElse]
  rw [skip_close hc, expect_fail h2]

/-- The places of a relation or tuple, up to the closing bracket. -/
theorem places_read {l : List (Option Text)} (hne : l ≠ []) (h : ∀ x, some x ∈ l → IsVar x)
    (hr : ∀ v ∈ l.map placeForm, Readable v) (rest : Text) :
    many1 (varOrPlaceholder) (printList (l.map placeForm) ++ ' ' :: ']' :: rest) = .ok l (']' :: rest) := by
  obtain ⟨x, l, rfl⟩ := List.exists_cons_of_ne_nil hne
  have := many1_reads (R := varOrPlaceholder) (placeForm x, x) (l.map fun b => (placeForm b, b))
    (s := printList ((x :: l).map placeForm) ++ ' ' :: ']' :: rest) (tail := ' ' :: ']' :: rest)
    (by
      intro q hq
      have hq' : q ∈ (x :: l).map fun b => (placeForm b, b) := by simpa using hq
      obtain ⟨b, hb, rfl⟩ := List.mem_map.mp hq'
      exact varOrPlaceholder_reads (fun y hy => h y (hy ▸ hb)) (hr _ (List.mem_map_of_mem hb)))
    (by
      intro q hq
      have hq' : q ∈ (x :: l).map fun b => (placeForm b, b) := by simpa using hq
      obtain ⟨b, hb, rfl⟩ := List.mem_map.mp hq'
      exact hr _ (List.mem_map_of_mem hb))
    (delim_sp _)
    (by rw [skip_sp_close (Or.inr rfl)]; exact varOrPlaceholder_stops _ _ (Or.inr rfl))
    (by simp [Function.comp_def])
  rw [skip_sp_close (Or.inr rfl)] at this
  simpa [Function.comp_def] using this

/-- A readable value other than a vector does not begin with a square bracket. -/
theorem print_no_bracket {v : Edn} (h : Readable v) (hv : ∀ l, v ≠ .vector l) (rest : Text) (k : Text → PRes α) :
    expect "[" (print v ++ rest) k = .fail := by
  have key : ∀ {c r}, print v = c :: r → c ≠ '[' → expect "[" (print v ++ rest) k = .fail := by
    intro c r h1 h2
    rw [h1]; exact expect_fail (by simp [lit, Ne.symm h2])
  have hinit : ∀ {c : Char}, isInitial c = true → c ≠ '[' := by rintro c h rfl; revert h; decide
  cases h with
  | nil => exact key (by rw [print]) (by decide)
  | boolean b => cases b <;> exact key (by rw [print]) (by decide)
  | integer n =>
    obtain ⟨c, r, h, hc⟩ := intText_head n
    refine key (c := c) (r := r) (by rw [print, h]) ?_
    rcases hc with hc | rfl
    · exact hinit (by simp [isInitial, hc])
    · decide
  | bigInteger n =>
    obtain ⟨c, r, h, hc⟩ := intText_head n
    refine key (c := c) (r := r ++ ['N']) (by rw [print, h]; rfl) ?_
    rcases hc with hc | rfl
    · exact hinit (by simp [isInitial, hc])
    · decide
  | instant t => exact key (by rw [print]; rfl) (by decide)
  | uuid u => exact key (by rw [print]; rfl) (by decide)
  | float f hf =>
    obtain ⟨c, r, e, -⟩ := print_float hf
    exact key (by rw [e]; rfl) (by decide)
  | fraction d =>
    obtain ⟨c, r, h, hc⟩ := floatText_head d
    refine key (c := c) (r := r) (by rw [print, h]) ?_
    rcases hc with hc | rfl
    · exact hinit (by simp [isInitial, hc])
    · decide
  | text s => exact key (by rw [print]; rfl) (by decide)
  | plainSymbol s h1 =>
    rcases h1 with ⟨c, r, rfl, hc, -⟩ | rfl | rfl
    · exact key (by rw [print]) (hinit hc)
    · exact key (by rw [print]) (by decide)
    · exact key (by rw [print]) (by decide)
  | nsSymbol k ns n hk h1 =>
    obtain ⟨c, r, rfl, hc, -⟩ := h1
    have := namespaced_eq hk
    subst this
    exact key (c := c) (r := r ++ '/' :: n) (by rw [print]; simp [NName.display]) (hinit hc)
  | plainKeyword k n hk => exact key (by rw [print]; rfl) (by decide)
  | nsKeyword k ns n hk => exact key (by rw [print]; rfl) (by decide)
  | vector l => exact absurd rfl (hv l)
  | list l => exact key (by rw [print]) (by decide)
  | set l => exact key (by rw [print]) (by decide)
  | map l => exact key (by rw [print]) (by decide)

theorem placeForm_not_vector (x : Option Text) : ∀ l, placeForm x ≠ .vector l := by
  intro l; cases x <;> simp [placeForm, symE]

theorem binding_reads {b : Binding} (h : BindOk b) (hr : Readable (bindForm b)) :
    Reads (binding) (bindForm b) b := by
  intro s rest hs hd
  cases b with
  | scalar x =>
    have hx := h.2 x (by simp [Binding.vars])
    have := variable_reads hx hr s rest hs hd
    have hb : ∀ (k : Text → PRes Binding), expect "[" (skip s) k = .fail := by
      intro k; rw [hs]; exact print_no_bracket hr (by simp [bindForm]) rest k
    simp [binding, hb, this, bind, EdnParse.PRes.orElse]
  | coll x =>
    have hx := h.2 x (by simp [Binding.vars])
    have hrl := readable_vector hr
    have hrx : Readable (.plainSymbol x) := hrl _ (by simp)
    have hrd : Readable (symE "...") := hrl _ (by simp [bindForm])
    rw [bindForm, print_vector] at hs
    have hsk := skip_printList hrx [symE "..."] (' ' :: ']' :: rest)
    have hv := variable_reads hx hrx _ _ hsk (printList_delim _ (delim_sp _))
    have h1 : ∀ (k : Text → PRes Binding), expect "[" (skip s) (fun r => expect "[" (skip r) k) = .fail := by
      intro k
      rw [hs, expect_ok (rest := printList [.plainSymbol x, symE "..."] ++ ' ' :: ']' :: rest) (by rfl), hsk]
      exact print_no_bracket hrx (by simp) _ k
    simp only [binding, h1, EdnParse.PRes.orElse]
    rw [hs, expect_ok (rest := printList [.plainSymbol x, symE "..."] ++ ' ' :: ']' :: rest) (by rfl), hv]
    simp only [bind]
    rw [skip_printList hrd, print_sym, expect_ok rfl, printList, List.nil_append,
      skip_sp_close (Or.inr rfl), expect_ok (rest := rest) (by rfl)]
  | rel l =>
    have hrl := readable_vector (readable_vector hr _ (List.mem_singleton.mpr rfl))
    have hrv : Readable (.vector (l.map placeForm)) := readable_vector hr _ (List.mem_singleton.mpr rfl)
    rw [bindForm, print_vector] at hs
    have hp := places_read (l := l) h.1 h.2 hrl (' ' :: ']' :: rest)
    simp only [binding, hs]
    rw [expect_ok (rest := printList [.vector (l.map placeForm)] ++ ' ' :: ']' :: rest) (by rfl),
      skip_printList hrv, print_vector,
      expect_ok (rest := printList (l.map placeForm) ++ ' ' :: ']' :: (printList [] ++ ' ' :: ']' :: rest)) (by rfl)]
    simp only [printList, List.nil_append] at hp ⊢
    rw [hp]
    simp only [bind]
    rw [expect_ok (rest := ' ' :: ']' :: rest) (by rfl), skip_sp_close (Or.inr rfl), expect_ok (rest := rest) (by rfl)]
    simp [EdnParse.PRes.orElse]
  | tuple l =>
    have hrl := readable_vector hr
    obtain ⟨x, l, rfl⟩ := List.exists_cons_of_ne_nil (show l ≠ [] from h.1)
    rw [bindForm, print_vector] at hs
    have hrx : Readable (placeForm x) := hrl _ (by simp)
    have hp := places_read (l := x :: l) h.1 h.2 hrl rest
    have hsk := skip_printList hrx (l.map placeForm) (' ' :: ']' :: rest)
    have h1 : ∀ (k : Text → PRes Binding), expect "[" (skip s) (fun r => expect "[" (skip r) k) = .fail := by
      intro k
      rw [hs, expect_ok (rest := printList ((x :: l).map placeForm) ++ ' ' :: ']' :: rest) (by rfl),
        List.map_cons, hsk]
      exact print_no_bracket hrx (placeForm_not_vector x) _ k
    have h2 : ∀ (k : Text → Text → PRes Binding), expect "[" (skip s) (fun r => bind (variable_ r) fun x r =>
        expect "..." r (k x)) = .fail := by
      intro k
      rw [hs, expect_ok (rest := printList ((x :: l).map placeForm) ++ ' ' :: ']' :: rest) (by rfl), List.map_cons]
      cases x with
      | none =>
        rw [variable_misses hrx (symE_varOf (by decide)) _ _ hsk (printList_delim _ (delim_sp _))]
        rfl
      | some x =>
        rw [variable_reads (h.2 x (by simp [Binding.vars])) hrx _ _ hsk (printList_delim _ (delim_sp _))]
        simp only [bind]
        refine expect_fail ?_
        cases l with
        | nil =>
          simp only [List.map_nil, printList, List.nil_append]
          rw [skip_sp_close (Or.inr rfl)]; simp [lit]
        | cons y l =>
          have hry : Readable (placeForm y) := hrl _ (by simp)
          rw [List.map_cons, skip_printList hry]
          cases y with
          | none => rw [placeForm, print_sym]; simp [lit]
          | some y =>
            obtain ⟨t, ht⟩ := h.2 y (by simp [Binding.vars])
            rw [placeForm, print, ht]; simp [lit]
    simp only [binding, h1, h2, EdnParse.PRes.orElse]
    rw [hs, expect_ok (rest := printList ((x :: l).map placeForm) ++ ' ' :: ']' :: rest) (by rfl), hp]
    simp only [bind]
    rw [expect_ok (rest := rest) (by rfl)]

/-! ### Patterns -/

theorem Reads.step {R : Text → PRes α} {v : Edn} {x : α} (h : Reads R v x) (hv : Readable v) {l : List Edn}
    {r tail : Text} (hr : skip r = skip (printList (v :: l) ++ tail)) (hd : Delim tail) :
    R r = .ok x (skip (printList l ++ tail)) :=
  h r _ (by rw [hr, skip_printList hv]) (printList_delim l hd)

theorem Misses.step {R : Text → PRes α} {v : Edn} (h : Misses R v) (hv : Readable v) {l : List Edn}
    {r tail : Text} (hr : skip r = skip (printList (v :: l) ++ tail)) (hd : Delim tail) : R r = .fail :=
  h r _ (by rw [hr, skip_printList hv]) (printList_delim l hd)

theorem opt_ok {R : Text → PRes α} {s r : Text} {x : α} (h : R s = .ok x r) : opt R s = .ok (some x) r := by
  simp [opt, h]

theorem opt_fail {R : Text → PRes α} {s : Text} (h : R s = .fail) : opt R s = .ok none s := by
  simp [opt, h]

/-- The places of a pattern after its source. -/
theorem places_rest {e a : NonVal} {v : Val} {tx : NonVal} {l : List Edn} (he : e.Ok) (ha : a.Ok) (hv : v.Ok) (ht : tx.Ok)
    (hl : l = [e.form, a.form, v.form, tx.form] ∨
      tx = .placeholder ∧ (l = [e.form, a.form, v.form] ∨ v = .placeholder ∧ l = [e.form, a.form]))
    (hr : ∀ x ∈ l, Readable x) {r rest : Text} (hs : skip r = skip (printList l ++ ' ' :: ']' :: rest))
    (src : Option Src) :
    (bind (accept (val r) nonValOf) fun e r =>
      bind (accept (val r) nonValOf) fun a r =>
      bind (opt (fun r => accept (val r) valOf) r) fun v r =>
      bind (opt (fun r => accept (val r) nonValOf) r) fun tx r =>
      expect "]" r fun r => patternOf src e a v tx (skip r)) =
      patternOf src e a (some v) (some tx) (skip rest) := by
  have hd := delim_sp (']' :: rest)
  have rd : ∀ {x : NonVal}, x.Ok → Readable x.form → Reads (fun r => accept (val r) nonValOf) x.form x :=
    fun hx hrx => accept_reads (val_reads hrx) (nonVal_form hx).1
  have rv : ∀ {x : Val}, x.Ok → Readable x.form → Reads (fun r => accept (val r) valOf) x.form x :=
    fun hx hrx => accept_reads (val_reads hrx) (val_form hx)
  have st1 : accept (val (']' :: rest)) valOf = .fail := accept_stops (val_stops) _ _ _ (Or.inr rfl)
  have st2 : accept (val (']' :: rest)) nonValOf = .fail := accept_stops (val_stops) _ _ _ (Or.inr rfl)
  have hte : ∀ k : Text → PRes Clause, expect "]" (']' :: rest) k = k rest := fun k => expect_ok rfl
  have hre : ∃ l', l = e.form :: l' := by
    rcases hl with rfl | ⟨-, rfl | ⟨-, rfl⟩⟩ <;> exact ⟨_, rfl⟩
  obtain ⟨l', hl'⟩ := hre
  have h1 := (rd he (hr _ (by rw [hl']; simp))).step (hr _ (by rw [hl']; simp)) (l := l') (by rw [hs, hl']) hd
  rw [h1]
  simp only [bind]
  have hra : ∃ l'', l' = a.form :: l'' := by
    rcases hl with rfl | ⟨-, rfl | ⟨-, rfl⟩⟩ <;> simp at hl' <;> exact ⟨_, hl'.symm⟩
  obtain ⟨l'', hl''⟩ := hra
  have h2 := (rd ha (hr _ (by rw [hl', hl'']; simp))).step (hr _ (by rw [hl', hl'']; simp)) (l := l'')
    (r := skip (printList l' ++ ' ' :: ']' :: rest)) (by rw [skip_skip, hl'']) hd
  rw [h2]
  simp only
  subst hl'' hl'
  rcases hl with hl | ⟨rfl, hl | ⟨rfl, hl⟩⟩
  · simp only [List.cons.injEq, true_and] at hl
    subst hl
    have h3 := (rv hv (hr _ (by simp))).step (hr _ (by simp)) (l := [tx.form])
      (r := skip (printList [v.form, tx.form] ++ ' ' :: ']' :: rest)) (by rw [skip_skip]) hd
    have h4 := (rd ht (hr _ (by simp))).step (hr _ (by simp)) (l := [])
      (r := skip (printList [tx.form] ++ ' ' :: ']' :: rest)) (by rw [skip_skip]) hd
    rw [opt_ok h3]
    simp only
    rw [opt_ok h4]
    simp only [printList, List.nil_append]
    rw [skip_sp_close (Or.inr rfl), hte]
  · simp only [List.cons.injEq, true_and] at hl
    subst hl
    have h3 := (rv hv (hr _ (by simp))).step (hr _ (by simp)) (l := [])
      (r := skip (printList [v.form] ++ ' ' :: ']' :: rest)) (by rw [skip_skip]) hd
    rw [opt_ok h3]
    simp only [printList, List.nil_append]
    rw [skip_sp_close (Or.inr rfl), opt_fail st2]
    simp only
    rw [hte]
    rfl
  · simp only [List.cons.injEq, true_and] at hl
    subst hl
    simp only [printList, List.nil_append]
    rw [skip_sp_close (Or.inr rfl), opt_fail st1]
    simp only
    rw [opt_fail st2]
    simp only
    rw [hte]
    rfl

theorem src_readable_ok {src : Option Src} (h : ∀ s, src = some (.named s) → s ≠ []) :
    ∀ x, src = some x → srcOf x.form = some x := by
  rintro x rfl
  exact src_form fun n hn => h n (by rw [hn])

/-- A pattern's text, up to the action of the rule. -/
theorem pattern_places {src : Option Src} {e a : NonVal} {v : Val} {tx : NonVal} {l : List Edn}
    (hsrc : ∀ s, src = some (.named s) → s ≠ []) (he : e.Ok) (ha : a.Ok) (hv : v.Ok) (ht : tx.Ok)
    (hl : l = [e.form, a.form, v.form, tx.form] ∨
      tx = .placeholder ∧ (l = [e.form, a.form, v.form] ∨ v = .placeholder ∧ l = [e.form, a.form]))
    (hr : Readable (.vector (src.toList.map Src.form ++ l))) {s rest : Text}
    (hs : skip s = print (.vector (src.toList.map Src.form ++ l)) ++ rest) :
    pattern s = patternOf src e a (some v) (some tx) (skip rest) := by
  have hrl := readable_vector hr
  rw [print_vector] at hs
  have hd := delim_sp (']' :: rest)
  unfold pattern
  rw [hs, expect_ok (rest := printList (src.toList.map Src.form ++ l) ++ ' ' :: ']' :: rest) (by rfl)]
  cases src with
  | none =>
    have hre : ∃ l', l = e.form :: l' := by
      rcases hl with rfl | ⟨-, rfl | ⟨-, rfl⟩⟩ <;> exact ⟨_, rfl⟩
    obtain ⟨l', hl'⟩ := hre
    have hre : Readable e.form := hrl _ (by simp [hl'])
    have h0 : srcVar (printList l ++ ' ' :: ']' :: rest) = .fail :=
      (accept_misses (val_reads hre) (nonVal_form he).2).step hre (l := l') (by rw [hl']) hd
    simp only [Option.toList_none, List.map_nil, List.nil_append] at hrl ⊢
    rw [opt_fail h0]
    simp only [bind]
    exact places_rest he ha hv ht hl hrl rfl none
  | some x =>
    simp only [Option.toList_some, List.map_cons, List.map_nil, List.cons_append, List.nil_append] at hrl ⊢
    have hrx : Readable x.form := hrl _ (by simp)
    have h0 : srcVar (printList (x.form :: l) ++ ' ' :: ']' :: rest) = .ok x (skip (printList l ++ ' ' :: ']' :: rest)) :=
      (accept_reads (val_reads hrx) (src_readable_ok hsrc x rfl)).step hrx (l := l) rfl hd
    rw [opt_ok h0]
    simp only [bind]
    exact places_rest he ha hv ht hl (fun y hy => hrl y (by simp [hy])) (by rw [skip_skip]) (some x)

theorem reversed_kw {ns n : Text} {k k' : NName} (hk : NName.namespaced ns n = .ok k)
    (hk' : NName.namespaced ns ('_' :: n) = .ok k') : k'.isBackward = true ∧ k'.toReversed = .ok k ∧ k'.isNamespaced = true := by
  have e' := namespaced_eq hk'
  have hns : ns ≠ [] := by
    rintro rfl; unfold NName.namespaced at hk; split at hk <;> simp at hk
  have hpos : 0 < ns.length := List.length_pos_iff.mpr hns
  have hname : k'.name = '_' :: n := by
    subst e'
    simp [NName.name, hns]
  have hnsn : k'.ns = some ns := by
    subst e'
    simp [NName.ns, hpos]
  refine ⟨by simp [NName.isBackward, hname], ?_, ?_⟩
  · simp [NName.toReversed, hname, hnsn, NName.new, hk]
  · subst e'; simp [NName.isNamespaced, hpos]

theorem pattern_reads {l : List Edn} {p : Pat} (h : PatForm l p) (hr : Readable (.vector l)) :
    Reads (pattern) (.vector l) (.pattern p) := by
  intro s rest hs hd
  cases h with
  | full src e a v tx l hsrc he ha hv ht hf hl =>
    rw [pattern_places hsrc he ha hv ht hl hr hs]
    have : Pat.new src e a v tx = .ok (some ⟨src, e, a, v, tx⟩) := by
      unfold Pat.new
      cases a with
      | ident k =>
        have := hf k rfl
        simp only [NName.isForward, Bool.not_eq_true'] at this
        simp [this]
      | _ => rfl
    simp [patternOf, this]
  | reversed src e v tx ns n k k' l hsrc he hvv hv ht hk hk' hl =>
    obtain ⟨h1, h2, h3⟩ := reversed_kw hk hk'
    rw [pattern_places (e := e) (a := .ident k') (v := v.toVal) (tx := tx) hsrc he trivial hvv ht
      (by rw [toVal_form]; rcases hl with h | ⟨h, h' | ⟨h', h''⟩⟩
          · exact Or.inl h
          · exact Or.inr ⟨h, Or.inl h'⟩
          · exact Or.inr ⟨h, Or.inr ⟨by rw [h']; rfl, h''⟩⟩) hr hs]
    have : Pat.new src e (.ident k') v.toVal tx = .ok (some ⟨src, v, .ident k, e.toVal, tx⟩) := by
      simp [Pat.new, h1, toVal_toNonVal hv, h2]
    simp [patternOf, this]

/-- A pattern does not begin with a list. -/
theorem pattern_misses_fn {m : List Edn} {l : List Edn} (hr : Readable (.vector (.list m :: l))) :
    Misses (pattern) (.vector (.list m :: l)) := by
  intro s rest hs hd
  have hrm : Readable (.list m) := readable_vector hr _ (by simp)
  rw [print_vector] at hs
  have h0 : srcVar (printList (.list m :: l) ++ ' ' :: ']' :: rest) = .fail :=
    (accept_misses (val_reads hrm) rfl).step hrm (l := l) rfl (delim_sp _)
  have h1 : accept (val (printList (.list m :: l) ++ ' ' :: ']' :: rest)) nonValOf = .fail :=
    (accept_misses (val_reads hrm) rfl).step hrm (l := l) rfl (delim_sp _)
  unfold pattern
  rw [hs, expect_ok (rest := printList (.list m :: l) ++ ' ' :: ']' :: rest) (by rfl), opt_fail h0]
  simp only [bind]
  rw [h1]

/-! ### Functions, predicates and types -/

/-- The first brackets of a clause that begins with a list. -/
theorem open_fn {m l : List Edn} (hr : Readable (.vector (.list m :: l))) {s rest : Text}
    (hs : skip s = print (.vector (.list m :: l)) ++ rest) (k : Text → PRes α) :
    expect "[" (skip s) (fun r => expect "(" (skip r) k) =
      k (printList m ++ ' ' :: ')' :: (printList l ++ ' ' :: ']' :: rest)) := by
  have hrm : Readable (.list m) := readable_vector hr _ (by simp)
  rw [hs, print_vector, expect_ok (rest := printList (.list m :: l) ++ ' ' :: ']' :: rest) (by rfl),
    skip_printList hrm, print_list]
  exact expect_ok rfl

/-- The first words of a list. -/
theorem open_list {h : Text} {l : List Edn} (hr : Readable (.list (.plainSymbol h :: l))) {s rest : Text}
    (hs : skip s = print (.list (.plainSymbol h :: l)) ++ rest) (w : String) (k : Text → PRes α) :
    expect "(" (skip s) (fun r => expect w (skip r) k) =
      expect w (h ++ (printList l ++ ' ' :: ')' :: rest)) k := by
  have hrh : Readable (.plainSymbol h) := readable_list hr _ (by simp)
  rw [hs, print_list, expect_ok (rest := printList (.plainSymbol h :: l) ++ ' ' :: ')' :: rest) (by rfl),
    skip_printList hrh, print]

theorem open_list_ok {w : String} {l : List Edn} (hr : Readable (.list (symE w :: l))) {s rest : Text}
    (hs : skip s = print (.list (symE w :: l)) ++ rest) (k : Text → PRes α) :
    expect "(" (skip s) (fun r => expect w (skip r) k) = k (printList l ++ ' ' :: ')' :: rest) := by
  rw [open_list hr hs w k, expect_ok rfl]

theorem open_list_fail {h : Text} {l : List Edn} (hr : Readable (.list (.plainSymbol h :: l))) {s rest : Text}
    (hs : skip s = print (.list (.plainSymbol h :: l)) ++ rest) {w : String} (hw : ∀ c ∈ w.toList, c ∉ endChars)
    (hp : ¬ w.toList <+: h) (k : Text → PRes α) :
    expect "(" (skip s) (fun r => expect w (skip r) k) = .fail := by
  rw [open_list hr hs w k]
  exact expect_fail (lit_none hw (printList_delim l (delim_sp _)) hp)

theorem expect_paren_vector {l : List Edn} {s rest : Text} (hs : skip s = print (.vector l) ++ rest)
    (k : Text → PRes α) : expect "(" (skip s) k = .fail := by
  rw [hs, print_vector]; exact expect_fail (by simp [lit])

theorem expect_bracket_list {l : List Edn} {s rest : Text} (hs : skip s = print (.list l) ++ rest)
    (k : Text → PRes α) : expect "[" (skip s) k = .fail := by
  rw [hs, print_list]; exact expect_fail (by simp [lit])

theorem typeAnnotation_reads {x : Text} {k : NName} (hx : IsVar x)
    (hr : Readable (.vector [.list [symE "type", .plainSymbol x, .keyword k]])) :
    Reads (typeAnnotation) (.vector [.list [symE "type", .plainSymbol x, .keyword k]]) (.typeAnno x k) := by
  intro s rest hs hd
  have hrm := readable_list (readable_vector hr _ (List.mem_singleton.mpr rfl))
  have hrt : Readable (symE "type") := hrm _ (by simp)
  have hrx : Readable (.plainSymbol x) := hrm _ (by simp)
  have hrk : Readable (.keyword k) := hrm _ (by simp)
  unfold typeAnnotation
  rw [open_fn hr hs, skip_printList hrt, print_sym, expect_ok rfl,
    (variable_reads hx hrx).step hrx (l := [.keyword k]) rfl (delim_sp _)]
  simp only [bind, skip_skip]
  rw [skip_printList hrk]
  have hkw : ∀ {rest}, Delim rest → EdnParse.keyword (print (.keyword k) ++ rest) = .ok (.keyword k) rest := by
    intro rest hd
    rw [print]
    cases hrk with
    | plainKeyword _ n hk h1 => exact keyword_plain_ok hk h1 hd
    | nsKeyword _ ns n hk h0 h1 => exact keyword_ns_ok hk h0 h1 hd
  simp only [rawKeyword]
  rw [hkw (printList_delim _ (delim_sp _))]
  simp only [accept, bind, kwOf, printList, List.nil_append]
  rw [skip_sp_close (Or.inl rfl), expect_ok (rest := ' ' :: ']' :: rest) (by rfl), skip_sp_close (Or.inr rfl),
    expect_ok (rest := rest) (by rfl)]

theorem typeAnnotation_misses {f : Text} {m l : List Edn} (hf : FnName f ["type"])
    (hr : Readable (.vector (.list (.plainSymbol f :: m) :: l))) :
    Misses (typeAnnotation) (.vector (.list (.plainSymbol f :: m) :: l)) := by
  intro s rest hs hd
  have hrm := readable_list (readable_vector hr _ (List.mem_cons_self ..))
  have hrf : Readable (.plainSymbol f) := hrm _ (by simp)
  unfold typeAnnotation
  rw [open_fn hr hs, skip_printList hrf, print]
  exact expect_fail (fnName_lit hf (by simp) (by decide) (printList_delim _ (delim_sp _)))

/-- The name and arguments of a function and the closing bracket. -/
theorem fn_head {f : Text} {ws : List String} {args : List Arg} (hf : FnName f ws) (ha : Arg.Oks args)
    (hr : Readable (.list (.plainSymbol f :: Arg.forms args))) (rest : Text) (k : Text → List Arg → Text → PRes α) :
    (bind (queryFunction (printList (.plainSymbol f :: Arg.forms args) ++ ' ' :: ')' :: rest)) fun f r =>
      bind (many (fnArg) r) fun args r => expect ")" r (k f args)) = k f args rest := by
  have hrm := readable_list hr
  have hrf : Readable (.plainSymbol f) := hrm _ (by simp)
  rw [(queryFunction_reads hf hrf).step hrf (l := Arg.forms args) rfl (delim_sp _)]
  simp only [bind]
  rw [args_read ha (fun v hv => hrm v (by simp [hv])) rest]
  exact expect_ok rfl

theorem pred_reads {f : Text} {args : List Arg} (hf : FnName f ["type"]) (ha : Arg.Oks args)
    (hr : Readable (.vector [.list (.plainSymbol f :: Arg.forms args)])) :
    Reads (pred) (.vector [.list (.plainSymbol f :: Arg.forms args)]) (.pred f args) := by
  intro s rest hs hd
  have hrm : Readable (.list (.plainSymbol f :: Arg.forms args)) := readable_vector hr _ (List.mem_singleton.mpr rfl)
  unfold pred
  rw [open_fn hr hs, fn_head hf ha hrm, printList, List.nil_append, skip_sp_close (Or.inr rfl),
    expect_ok (rest := rest) (by rfl)]

theorem bindForm_head {b : Binding} (h : BindOk b) (rest : Text) : lit "]".toList (print (bindForm b) ++ rest) = none := by
  cases b with
  | scalar x =>
    obtain ⟨t, rfl⟩ := h.2 x (by simp [Binding.vars])
    rw [bindForm, print]; simp [lit]
  | coll x => rw [bindForm, print_vector]; simp [lit]
  | rel l => rw [bindForm, print_vector]; simp [lit]
  | tuple l => rw [bindForm, print_vector]; simp [lit]

theorem pred_misses {f : Text} {args : List Arg} {b : Binding} (hf : FnName f ["type"]) (ha : Arg.Oks args) (hb : BindOk b)
    (hr : Readable (.vector [.list (.plainSymbol f :: Arg.forms args), bindForm b])) :
    Misses (pred) (.vector [.list (.plainSymbol f :: Arg.forms args), bindForm b]) := by
  intro s rest hs hd
  have hrm : Readable (.list (.plainSymbol f :: Arg.forms args)) := readable_vector hr _ (by simp)
  have hrb : Readable (bindForm b) := readable_vector hr _ (by simp)
  unfold pred
  rw [open_fn hr hs, fn_head hf ha hrm, skip_printList hrb]
  exact expect_fail (bindForm_head hb _)

theorem whereFn_reads {f : Text} {args : List Arg} {b : Binding} (hf : FnName f ["type"]) (ha : Arg.Oks args) (hb : BindOk b)
    (hr : Readable (.vector [.list (.plainSymbol f :: Arg.forms args), bindForm b])) :
    Reads (whereFn) (.vector [.list (.plainSymbol f :: Arg.forms args), bindForm b]) (.whereFn f args b) := by
  intro s rest hs hd
  have hrm : Readable (.list (.plainSymbol f :: Arg.forms args)) := readable_vector hr _ (by simp)
  have hrb : Readable (bindForm b) := readable_vector hr _ (by simp)
  unfold whereFn
  rw [open_fn hr hs, fn_head hf ha hrm,
    (binding_reads hb hrb).step hrb (l := []) (by rw [skip_skip]) (delim_sp _)]
  simp only [bind, printList, List.nil_append]
  rw [skip_sp_close (Or.inr rfl), expect_ok (rest := rest) (by rfl)]

/-! ### Clauses -/

/-- What no clause begins with. -/
def NoOpen (t : Text) : Prop := ∀ c r, t = c :: r → c ≠ '[' ∧ c ≠ '('

theorem lit_noOpen {t : Text} (h : NoOpen t) : lit "[".toList t = none ∧ lit "(".toList t = none := by
  cases t with
  | nil => simp [lit]
  | cons c r =>
    obtain ⟨h1, h2⟩ := h c r rfl
    simp [lit, Ne.symm h1, Ne.symm h2]

theorem clauseN_noOpen (n : Nat) {s : Text} (h : NoOpen (skip s)) : clauseN (n + 1) s = .fail := by
  obtain ⟨h1, h2⟩ := lit_noOpen h
  have e1 : ∀ k : Text → PRes Clause, expect "[" (skip s) k = .fail := fun k => expect_fail h1
  have e2 : ∀ k : Text → PRes Clause, expect "(" (skip s) k = .fail := fun k => expect_fail h2
  simp only [clauseN, pattern, orJoinClause, orClause, notJoinClause, notClause, typeAnnotation, pred, whereFn, e1, e2,
    EdnParse.PRes.orElse]

theorem noOpen_close {c : Char} (hc : c = ')' ∨ c = ']') (r : Text) : NoOpen (c :: r) := by
  intro c' r' h
  simp only [List.cons.injEq] at h
  rw [← h.1]
  rcases hc with rfl | rfl <;> decide

theorem clauseN_stops (n : Nat) : Stops (clauseN (n + 1)) := by
  intro c r hc
  exact clauseN_noOpen n (by rw [skip_close hc]; exact noOpen_close hc r)

theorem orWhere_stops (n : Nat) : Stops (orWhere (clauseN (n + 1))) := by
  intro c r hc
  have h := noOpen_close hc r
  rw [orWhere, clauseN_stops n c r hc]
  simp only [bind, EdnParse.PRes.orElse]
  rw [skip_close hc]
  exact expect_fail (lit_noOpen h).2

theorem clausesForm_pairs {l : List Edn} {cs : List Clause} (h : ClausesForm l cs) :
    ∃ ps : List (Edn × Clause), l = ps.map (·.1) ∧ cs = ps.map (·.2) ∧ ∀ p ∈ ps, ClauseForm p.1 p.2 := by
  induction l generalizing cs with
  | nil => cases h; exact ⟨[], rfl, rfl, by simp⟩
  | cons v l ih =>
    cases h with
    | cons h1 h2 =>
      obtain ⟨ps, rfl, rfl, hp⟩ := ih h2
      exact ⟨(v, _) :: ps, rfl, rfl, by
        intro p hp'
        rcases List.mem_cons.mp hp' with rfl | hp'
        · exact h1
        · exact hp p hp'⟩

theorem armsForm_pairs {l : List Edn} {cs : List OrArm} (h : ArmsForm l cs) :
    ∃ ps : List (Edn × OrArm), l = ps.map (·.1) ∧ cs = ps.map (·.2) ∧ ∀ p ∈ ps, ArmForm p.1 p.2 := by
  induction l generalizing cs with
  | nil => cases h; exact ⟨[], rfl, rfl, by simp⟩
  | cons v l ih =>
    cases h with
    | cons h1 h2 =>
      obtain ⟨ps, rfl, rfl, hp⟩ := ih h2
      exact ⟨(v, _) :: ps, rfl, rfl, by
        intro p hp'
        rcases List.mem_cons.mp hp' with rfl | hp'
        · exact h1
        · exact hp p hp'⟩

theorem print_mem_lt {l : List Edn} {v : Edn} (h : v ∈ l) : (print v).length < (printList l).length := by
  induction l with
  | nil => simp at h
  | cons w l ih =>
    rw [printList]
    simp only [List.length_cons, List.length_append]
    rcases List.mem_cons.mp h with rfl | h
    · omega
    · have := ih h; omega

theorem print_list_length (l : List Edn) : (print (.list l)).length = (printList l).length + 3 := by
  rw [print]; simp

/-- The items of a list up to the closing bracket. -/
theorem items_read {R : Text → PRes α} {ps : List (Edn × α)} (hne : ps ≠ []) (hR : ∀ p ∈ ps, Reads R p.1 p.2)
    (hv : ∀ p ∈ ps, Readable p.1) (hst : Stops R) {c : Char} (hc : c = ')' ∨ c = ']') {s : Text} (rest : Text)
    (hs : skip s = skip (printList (ps.map (·.1)) ++ ' ' :: c :: rest)) :
    many1 R s = .ok (ps.map (·.2)) (c :: rest) := by
  obtain ⟨p, ps, rfl⟩ := List.exists_cons_of_ne_nil hne
  have := many1_reads (R := R) p ps hR hv (delim_sp (c :: rest))
    (by rw [skip_sp_close hc]; exact hst _ _ hc) hs
  rwa [skip_sp_close hc] at this

theorem ruleVars_reads {xs : List Text} (hne : xs ≠ []) (hnd : xs.Nodup) (hx : ∀ x ∈ xs, IsVar x)
    (hr : ∀ v ∈ xs.map Edn.plainSymbol, Readable v) (rest : Text) :
    ruleVars (printList (xs.map .plainSymbol) ++ ' ' :: ']' :: rest) = .ok xs (']' :: rest) := by
  have := items_read (R := variable_) (ps := xs.map fun x => (.plainSymbol x, x)) (by simpa using hne)
    (by
      intro p hp
      obtain ⟨x, hx', rfl⟩ := List.mem_map.mp hp
      exact variable_reads (hx x hx') (hr _ (List.mem_map_of_mem hx')))
    (by
      intro p hp
      obtain ⟨x, hx', rfl⟩ := List.mem_map.mp hp
      exact hr _ (List.mem_map_of_mem hx'))
    (variable_stops) (c := ']') (Or.inr rfl)
    (s := printList (xs.map .plainSymbol) ++ ' ' :: ']' :: rest) rest (by simp [Function.comp_def])
  simp only [List.map_map, Function.comp_def, List.map_id'] at this
  simp [ruleVars, accept, this, bind, uniqueOf, hnd]

/-- Sub-clauses of a list, by what is known of shorter texts. -/
theorem clauses_read {n : Nat} (ih : ∀ v c, ClauseForm v c → Readable v → (print v).length < n →
      Reads (clauseN n) v c) {l : List Edn} {cs : List Clause} (h : ClausesForm l cs) (hne : cs ≠ [])
    (hr : ∀ v ∈ l, Readable v) (hlen : ∀ v ∈ l, (print v).length < n) {s : Text} (rest : Text)
    (hs : skip s = skip (printList l ++ ' ' :: ')' :: rest)) :
    many1 (clauseN n) s = .ok cs (')' :: rest) := by
  obtain ⟨ps, rfl, rfl, hp⟩ := clausesForm_pairs h
  have hpne : ps ≠ [] := by rintro rfl; exact hne rfl
  have hst : Stops (clauseN n) := by
    obtain ⟨p, ps', rfl⟩ := List.exists_cons_of_ne_nil hpne
    have := hlen p.1 (by simp)
    obtain ⟨m, rfl⟩ : ∃ m, n = m + 1 := ⟨n - 1, by omega⟩
    exact clauseN_stops m
  exact items_read hpne
    (fun p hq => ih _ _ (hp p hq) (hr _ (List.mem_map_of_mem hq)) (hlen _ (List.mem_map_of_mem hq)))
    (fun p hq => hr _ (List.mem_map_of_mem hq)) hst (Or.inl rfl) rest hs

theorem arm_reads {n : Nat} (ih : ∀ v c, ClauseForm v c → Readable v → (print v).length < n →
      Reads (clauseN n) v c) {v : Edn} {a : OrArm} (h : ArmForm v a) (hr : Readable v)
    (hlen : (print v).length < n) : Reads (orWhere (clauseN n)) v a := by
  intro s rest hs hd
  cases h with
  | clause h =>
    rw [orWhere, ih _ _ h hr hlen s rest hs hd]
    simp [bind, EdnParse.PRes.orElse]
  | @and l cs h hne =>
    obtain ⟨m, rfl⟩ : ∃ m, n = m + 1 := ⟨n - 1, by omega⟩
    have hr' : Readable (.list (.plainSymbol "and".toList :: l)) := hr
    have hs' : skip s = print (.list (.plainSymbol "and".toList :: l)) ++ rest := hs
    have hb : ∀ k : Text → PRes Clause, expect "[" (skip s) k = .fail := fun k => expect_bracket_list hs k
    have h1 : ∀ k : Text → PRes Clause, expect "(" (skip s) (fun r => expect "or-join" (skip r) k) = .fail :=
      fun k => open_list_fail hr' hs' (by decide) (by decide) k
    have h2 : ∀ k : Text → PRes Clause, expect "(" (skip s) (fun r => expect "or" (skip r) k) = .fail :=
      fun k => open_list_fail hr' hs' (by decide) (by decide) k
    have h3 : ∀ k : Text → PRes Clause, expect "(" (skip s) (fun r => expect "not-join" (skip r) k) = .fail :=
      fun k => open_list_fail hr' hs' (by decide) (by decide) k
    have h4 : ∀ k : Text → PRes Clause, expect "(" (skip s) (fun r => expect "not" (skip r) k) = .fail :=
      fun k => open_list_fail hr' hs' (by decide) (by decide) k
    have hmiss : clauseN (m + 1) s = .fail := by
      simp only [clauseN, pattern, orJoinClause, orClause, notJoinClause, notClause, typeAnnotation, pred, whereFn, hb,
        h1, h2, h3, h4, EdnParse.PRes.orElse]
    have hrl := readable_list hr
    rw [orWhere, hmiss]
    simp only [bind, EdnParse.PRes.orElse]
    rw [open_list_ok hr hs]
    rw [print_list_length] at hlen
    rw [clauses_read ih h hne (fun v hv => hrl v (by simp [hv]))
      (fun v hv => by have := print_mem_lt (l := symE "and" :: l) (v := v) (by simp [hv]); omega) rest rfl]
    simp only
    rw [expect_ok (rest := rest) (by rfl)]

theorem arms_read {n : Nat} (ih : ∀ v c, ClauseForm v c → Readable v → (print v).length < n →
      Reads (clauseN n) v c) {l : List Edn} {cs : List OrArm} (h : ArmsForm l cs) (hne : cs ≠ [])
    (hr : ∀ v ∈ l, Readable v) (hlen : ∀ v ∈ l, (print v).length < n) {s : Text} (rest : Text)
    (hs : skip s = skip (printList l ++ ' ' :: ')' :: rest)) :
    many1 (orWhere (clauseN n)) s = .ok cs (')' :: rest) := by
  obtain ⟨ps, rfl, rfl, hp⟩ := armsForm_pairs h
  have hpne : ps ≠ [] := by rintro rfl; exact hne rfl
  have hst : Stops (orWhere (clauseN n)) := by
    obtain ⟨p, ps', rfl⟩ := List.exists_cons_of_ne_nil hpne
    have := hlen p.1 (by simp)
    obtain ⟨m, rfl⟩ : ∃ m, n = m + 1 := ⟨n - 1, by omega⟩
    exact orWhere_stops m
  exact items_read hpne
    (fun p hq => arm_reads ih (hp p hq) (hr _ (List.mem_map_of_mem hq)) (hlen _ (List.mem_map_of_mem hq)))
    (fun p hq => hr _ (List.mem_map_of_mem hq)) hst (Or.inl rfl) rest hs

theorem clauseN_reads (n : Nat) : ∀ v c, ClauseForm v c → Readable v → (print v).length < n →
    Reads (clauseN n) v c := by
  induction n with
  | zero => intro v c _ _ h; omega
  | succ n ih =>
    intro v c h hr hlen s rest hs hd
    cases h with
    | @pattern l p h =>
      simp only [clauseN, pattern_reads h hr s rest hs hd, EdnParse.PRes.orElse]
    | @or l arms h hne =>
      have hb : ∀ k : Text → PRes Clause, expect "[" (skip s) k = .fail := fun k => expect_bracket_list hs k
      have h1 : ∀ k : Text → PRes Clause, expect "(" (skip s) (fun r => expect "or-join" (skip r) k) = .fail :=
        fun k => open_list_fail hr hs (by decide) (by decide) k
      have hrl := readable_list hr
      rw [print_list_length] at hlen
      have := arms_read ih h hne (fun v hv => hrl v (by simp [hv]))
        (fun v hv => by have := print_mem_lt (l := symE "or" :: l) (v := v) (by simp [hv]); omega) rest rfl
      have ho : orClause (clauseN n) s = .ok (.or none arms) (skip rest) := by
        rw [orClause, open_list_ok hr hs, this]
        simp only [bind]
        rw [expect_ok (rest := rest) (by rfl)]
      simp only [clauseN, pattern, orJoinClause, hb, h1, ho, EdnParse.PRes.orElse]
    | @orJoin xs l arms hne hnd hx h hne' =>
      have hb : ∀ k : Text → PRes Clause, expect "[" (skip s) k = .fail := fun k => expect_bracket_list hs k
      have hrl := readable_list hr
      rw [print_list_length] at hlen
      have hrx : Readable (.vector (xs.map .plainSymbol)) := hrl _ (by simp)
      have := arms_read ih h hne' (fun v hv => hrl v (by simp [hv]))
        (fun v hv => by
          have := print_mem_lt (l := symE "or-join" :: .vector (xs.map .plainSymbol) :: l) (v := v) (by simp [hv]); omega)
        rest rfl
      have ho : orJoinClause (clauseN n) s = .ok (.or (some xs) arms) (skip rest) := by
        rw [orJoinClause, open_list_ok hr hs, skip_printList hrx, print_vector,
          expect_ok (rest := printList (xs.map .plainSymbol) ++ ' ' :: ']' :: (printList l ++ ' ' :: ')' :: rest)) (by rfl),
          ruleVars_reads hne hnd hx (readable_vector hrx)]
        simp only [bind]
        rw [expect_ok (rest := printList l ++ ' ' :: ')' :: rest) (by rfl), this]
        simp only
        rw [expect_ok (rest := rest) (by rfl)]
      simp only [clauseN, pattern, hb, ho, EdnParse.PRes.orElse]
    | @not l cs h hne =>
      have hb : ∀ k : Text → PRes Clause, expect "[" (skip s) k = .fail := fun k => expect_bracket_list hs k
      have h1 : ∀ k : Text → PRes Clause, expect "(" (skip s) (fun r => expect "or-join" (skip r) k) = .fail :=
        fun k => open_list_fail hr hs (by decide) (by decide) k
      have h2 : ∀ k : Text → PRes Clause, expect "(" (skip s) (fun r => expect "or" (skip r) k) = .fail :=
        fun k => open_list_fail hr hs (by decide) (by decide) k
      have h3 : ∀ k : Text → PRes Clause, expect "(" (skip s) (fun r => expect "not-join" (skip r) k) = .fail :=
        fun k => open_list_fail hr hs (by decide) (by decide) k
      have hrl := readable_list hr
      rw [print_list_length] at hlen
      have := clauses_read ih h hne (fun v hv => hrl v (by simp [hv]))
        (fun v hv => by have := print_mem_lt (l := symE "not" :: l) (v := v) (by simp [hv]); omega) rest rfl
      have ho : notClause (clauseN n) s = .ok (.not none cs) (skip rest) := by
        rw [notClause, open_list_ok hr hs, this]
        simp only [bind]
        rw [expect_ok (rest := rest) (by rfl)]
      simp only [clauseN, pattern, orJoinClause, orClause, notJoinClause, hb, h1, h2, h3, ho, EdnParse.PRes.orElse]
    | @notJoin xs l cs hne hnd hx h hne' =>
      have hb : ∀ k : Text → PRes Clause, expect "[" (skip s) k = .fail := fun k => expect_bracket_list hs k
      have h1 : ∀ k : Text → PRes Clause, expect "(" (skip s) (fun r => expect "or-join" (skip r) k) = .fail :=
        fun k => open_list_fail hr hs (by decide) (by decide) k
      have h2 : ∀ k : Text → PRes Clause, expect "(" (skip s) (fun r => expect "or" (skip r) k) = .fail :=
        fun k => open_list_fail hr hs (by decide) (by decide) k
      have hrl := readable_list hr
      rw [print_list_length] at hlen
      have hrx : Readable (.vector (xs.map .plainSymbol)) := hrl _ (by simp)
      have := clauses_read ih h hne' (fun v hv => hrl v (by simp [hv]))
        (fun v hv => by
          have := print_mem_lt (l := symE "not-join" :: .vector (xs.map .plainSymbol) :: l) (v := v) (by simp [hv]); omega)
        rest rfl
      have ho : notJoinClause (clauseN n) s = .ok (.not (some xs) cs) (skip rest) := by
        rw [notJoinClause, open_list_ok hr hs, skip_printList hrx, print_vector,
          expect_ok (rest := printList (xs.map .plainSymbol) ++ ' ' :: ']' :: (printList l ++ ' ' :: ')' :: rest)) (by rfl),
          ruleVars_reads hne hnd hx (readable_vector hrx)]
        simp only [bind]
        rw [expect_ok (rest := printList l ++ ' ' :: ')' :: rest) (by rfl), this]
        simp only
        rw [expect_ok (rest := rest) (by rfl)]
      simp only [clauseN, pattern, orJoinClause, orClause, hb, h1, h2, ho, EdnParse.PRes.orElse]
    | @typeAnno x k hx =>
      have hp : ∀ k : Text → PRes Clause, expect "(" (skip s) k = .fail := fun k => expect_paren_vector hs k
      have h0 := pattern_misses_fn hr s rest hs hd
      have ht := typeAnnotation_reads hx hr s rest hs hd
      simp only [clauseN, orJoinClause, orClause, notJoinClause, notClause, h0, hp, ht, EdnParse.PRes.orElse]
    | @pred f args hf ha =>
      have hp : ∀ k : Text → PRes Clause, expect "(" (skip s) k = .fail := fun k => expect_paren_vector hs k
      have h0 := pattern_misses_fn hr s rest hs hd
      have ht := typeAnnotation_misses hf hr s rest hs hd
      have h1 := pred_reads hf ha hr s rest hs hd
      simp only [clauseN, orJoinClause, orClause, notJoinClause, notClause, h0, hp, ht, h1, EdnParse.PRes.orElse]
    | @whereFn f args b hf ha hb =>
      have hp : ∀ k : Text → PRes Clause, expect "(" (skip s) k = .fail := fun k => expect_paren_vector hs k
      have h0 := pattern_misses_fn hr s rest hs hd
      have ht := typeAnnotation_misses hf hr s rest hs hd
      have h1 := pred_misses hf ha hb hr s rest hs hd
      have h2 := whereFn_reads hf ha hb hr s rest hs hd
      simp only [clauseN, orJoinClause, orClause, notJoinClause, notClause, h0, hp, ht, h1, h2, EdnParse.PRes.orElse]

theorem clause_reads {v : Edn} {c : Clause} (h : ClauseForm v c) (hr : Readable v) : Reads (clause) v c := by
  intro s rest hs hd
  refine clauseN_reads _ v c h hr ?_ s rest hs hd
  have := skip_length s
  rw [hs] at this
  simp only [List.length_append] at this
  omega

/-! ### What follows a part -/

/-- The closing bracket of the query, or a keyword without namespace. -/
def AfterPart (t : Text) : Prop :=
  (∃ r, t = ']' :: r) ∨ ∃ w rest, Readable (kwdE w) ∧ Delim rest ∧ t = print (kwdE w) ++ rest

theorem AfterPart.head {t : Text} (h : AfterPart t) : ∃ c r, t = c :: r ∧ (c = ']' ∨ c = ':') := by
  rcases h with ⟨r, rfl⟩ | ⟨w, rest, -, -, rfl⟩
  · exact ⟨_, _, rfl, Or.inl rfl⟩
  · rw [print_kwd]; exact ⟨_, _, rfl, Or.inr rfl⟩

theorem AfterPart.skip_eq {t : Text} (h : AfterPart t) : skip t = t := by
  obtain ⟨c, r, rfl, hc⟩ := h.head
  refine skip_delim_ne ?_ ?_ <;> rcases hc with rfl | rfl <;> decide

theorem AfterPart.noOpen {t : Text} (h : AfterPart t) : NoOpen t := by
  obtain ⟨c, r, rfl, hc⟩ := h.head
  intro c' r' e
  simp only [List.cons.injEq] at e
  rw [← e.1]
  rcases hc with rfl | rfl <;> decide

theorem AfterPart.variable {t : Text} (h : AfterPart t) : variable_ t = .fail := by
  have hs := h.skip_eq
  rcases h with ⟨r, rfl⟩ | ⟨w, rest, hr, hd, rfl⟩
  · exact variable_stops _ _ (Or.inr rfl)
  · exact variable_misses hr rfl _ rest hs hd

theorem AfterPart.lit {t : Text} (h : AfterPart t) {c : Char} (hc : c ≠ ']' ∧ c ≠ ':') {w : Text} : lit (c :: w) t = none := by
  obtain ⟨d, r, rfl, hd⟩ := h.head
  have : c ≠ d := by rcases hd with rfl | rfl; exacts [hc.1, hc.2]
  simp [EdnParse.lit, this]

/-! ### Pull -/

theorem rawNsKeyword_reads {k : NName} (hr : Readable (.keyword k)) (hn : k.isNamespaced = true) {rest : Text} (hd : Delim rest) :
    rawNsKeyword (print (.keyword k) ++ rest) = .ok k rest := by
  rw [print]
  cases hr with
  | plainKeyword _ n hk h1 =>
    obtain ⟨c, r, rfl, -, -⟩ := h1
    simp only [NName.plain] at hk
    simp at hk
    subst hk
    simp [NName.isNamespaced] at hn
  | nsKeyword _ ns n hk h0 h1 =>
    have e := namespaced_eq hk
    subst e
    have := nsPart_ns h0 (n ++ rest)
    simp only [NName.displayKeyword, NName.display] at this ⊢
    simp [rawNsKeyword, expect, EdnParse.lit, this, symbolName_ok h1 hd, hk, EdnParse.build, accept, bind, kwOf]

/-- Rules for items of several forms, which may look at what follows. -/
theorem manyN_chunks {R : Text → PRes α} (C : Text → Prop) (l : List (List Edn × α))
    (hl : ∀ p ∈ l, ∀ s tail, Delim tail → C (skip tail) → skip s = skip (printList p.1 ++ tail) →
      R s = .ok p.2 (skip tail))
    (hC : ∀ p ∈ l, ∀ tail, Delim tail → C (skip (printList p.1 ++ tail)))
    {tail : Text} (hd : Delim tail) (hCt : C (skip tail)) (hend : R (skip tail) = .fail) (n : Nat) (hn : l.length < n) :
    C (skip (printList (l.flatMap (·.1)) ++ tail)) ∧
    manyN R n (skip (printList (l.flatMap (·.1)) ++ tail)) = .ok (l.map (·.2)) (skip tail) := by
  induction l generalizing n with
  | nil =>
    obtain ⟨m, rfl⟩ : ∃ m, n = m + 1 := ⟨n - 1, by omega⟩
    simp [manyN, printList, hend, hCt]
  | cons p l ih =>
    obtain ⟨m, rfl⟩ : ∃ m, n = m + 1 := ⟨n - 1, by omega⟩
    simp only [List.length_cons] at hn
    obtain ⟨h1, h2⟩ := ih (fun q hq => hl q (by simp [hq])) (fun q hq => hC q (by simp [hq])) m (by omega)
    have hd' : Delim (printList (l.flatMap (·.1)) ++ tail) := printList_delim _ hd
    rw [List.flatMap_cons, printList_append, List.append_assoc]
    refine ⟨hC p (by simp) _ hd', ?_⟩
    rw [manyN, hl p (by simp) _ _ hd' h1 (skip_skip _)]
    simp only [bind, List.map_cons]
    rw [h2]

theorem many1_chunks {R : Text → PRes α} (C : Text → Prop) (l : List (List Edn × α)) (hne : l ≠ [])
    (hl : ∀ p ∈ l, ∀ s tail, Delim tail → C (skip tail) → skip s = skip (printList p.1 ++ tail) →
      R s = .ok p.2 (skip tail))
    (hC : ∀ p ∈ l, ∀ tail, Delim tail → C (skip (printList p.1 ++ tail)))
    (hv : ∀ p ∈ l, p.1 ≠ [] ∧ ∀ v ∈ p.1, Readable v)
    {s tail : Text} (hd : Delim tail) (hCt : C (skip tail)) (hend : R (skip tail) = .fail)
    (hs : skip s = skip (printList (l.flatMap (·.1)) ++ tail)) :
    many1 R s = .ok (l.map (·.2)) (skip tail) := by
  obtain ⟨p, l, rfl⟩ := List.exists_cons_of_ne_nil hne
  have hd' : Delim (printList (l.flatMap (·.1)) ++ tail) := printList_delim _ hd
  have hlen : l.length < (skip (printList (l.flatMap (·.1)) ++ tail)).length + 1 := by
    cases l with
    | nil => simp
    | cons q l =>
      obtain ⟨v, m, hq⟩ := List.exists_cons_of_ne_nil (hv q (by simp)).1
      have hr := (hv q (by simp)).2 v (by simp [hq])
      rw [List.flatMap_cons, hq, List.cons_append, skip_printList hr]
      have h1 := printList_length (m ++ l.flatMap (·.1))
      have h3 : l.length ≤ (l.flatMap (·.1)).length := by
        have hv' : ∀ p ∈ l, p.1 ≠ [] := fun p hp => (hv p (by simp [hp])).1
        clear hs hd' hq h1 hr hl hC hv hne
        induction l with
        | nil => simp
        | cons q' l ih =>
          have h4 := List.length_pos_iff.mpr (hv' q' (by simp))
          have := ih (fun p hp => hv' p (by simp [hp]))
          simp only [List.flatMap_cons, List.length_append, List.length_cons]
          omega
      obtain ⟨c, r, h2, -⟩ := print_starts hr
      simp only [List.length_append, h2, List.length_cons] at h1 ⊢
      omega
  obtain ⟨h1, h2⟩ := manyN_chunks C l (fun q hq => hl q (by simp [hq])) (fun q hq => hC q (by simp [hq])) hd hCt hend _ hlen
  rw [List.flatMap_cons, printList_append, List.append_assoc] at hs
  unfold many1
  rw [hl p (by simp) s _ hd' h1 hs]
  simp only [bind, List.map_cons]
  rw [many, h2]

theorem rawKeyword_reads {k : NName} (hr : Readable (.keyword k)) {rest : Text} (hd : Delim rest) :
    rawKeyword (print (.keyword k) ++ rest) = .ok k rest := by
  have : EdnParse.keyword (print (.keyword k) ++ rest) = .ok (.keyword k) rest := by
    rw [print]
    cases hr with
    | plainKeyword _ n hk h1 => exact keyword_plain_ok hk h1 hd
    | nsKeyword _ ns n hk h0 h1 => exact keyword_ns_ok hk h0 h1 hd
  simp [rawKeyword, this, accept, bind, kwOf]

theorem isInitial_ne_colon {c : Char} (h : isSubsequent c = true ∨ c = '.' ∨ c = '/') : c ≠ ':' ∧ isWs c = false ∧ c ≠ ';' := by
  rcases h with h | rfl | rfl
  · refine ⟨?_, ?_, ?_⟩
    · rintro rfl; revert h; decide
    · by_contra hw
      simp only [Bool.not_eq_false] at hw
      simp [isWs] at hw
      rcases hw with (((rfl | rfl) | rfl) | rfl) | rfl <;> revert h <;> decide
    · rintro rfl; revert h; decide
  · decide
  · decide

theorem pullAlias_ns {k : NName} (hr : Readable (.keyword k)) (hn : k.isNamespaced = true) {rest : Text} :
    pullAlias (print (.keyword k) ++ rest) = .fail := by
  rw [print]
  cases hr with
  | plainKeyword _ n hk h1 =>
    obtain ⟨c, r, rfl, -, -⟩ := h1
    simp only [NName.plain] at hk
    simp at hk
    subst hk
    simp [NName.isNamespaced] at hn
  | nsKeyword _ ns n hk h0 h1 =>
    have e := namespaced_eq hk
    subst e
    have key : ∀ r, EdnParse.lit ":as".toList (':' :: (ns ++ '/' :: n) ++ rest) = some r →
        ∃ c r', r = c :: r' ∧ (isSubsequent c = true ∨ c = '.' ∨ c = '/') := by
      intro r hl
      obtain ⟨c, r0, rfl, hc, hr0⟩ := h0
      cases r0 with
      | nil => simp [EdnParse.lit] at hl
      | cons d r1 =>
        have h2 := hr0.2
        simp only [show ":as".toList = [':', 'a', 's'] from rfl, List.cons_append, EdnParse.lit, if_true] at hl
        split at hl
        · split at hl
          · simp only [Option.some.injEq] at hl
            subst hl
            cases r1 with
            | nil => exact ⟨_, _, rfl, Or.inr (Or.inr rfl)⟩
            | cons d' r1 =>
              refine ⟨_, _, rfl, ?_⟩
              rcases h2.1 with h | h
              · exact Or.inl h
              · exact Or.inr (Or.inl h.1)
          · simp at hl
        · simp at hl
    unfold pullAlias expect
    split
    · rename_i r hl
      obtain ⟨c, r', rfl, hc⟩ := key r (by simpa [NName.displayKeyword, NName.display] using hl)
      obtain ⟨h1, h2, h3⟩ := isInitial_ne_colon hc
      have := skip_delim_ne (r := r') h2 h3
      simp [this, rawKeyword, EdnParse.keyword, EdnParse.lit, Ne.symm h1, accept, bind]
    · rfl

theorem pullAttribute_reads {a : PullAttr} (ha : a.Ok) (hr : ∀ v ∈ a.forms, Readable v) {s tail : Text} (hd : Delim tail)
    (hC : pullAlias (skip tail) = .fail) (hs : skip s = skip (printList a.forms ++ tail)) :
    pullAttribute s = .ok a (skip tail) := by
  unfold pullAttribute
  cases a with
  | wildcard =>
    have hw : Readable (symE "*") := hr _ (by simp [PullAttr.forms])
    rw [hs, PullAttr.forms, skip_printList hw, print_sym, expect_ok rfl]
    simp [EdnParse.PRes.orElse, printList]
  | attr k al =>
    obtain ⟨hn, hf, hal⟩ := ha
    have hk : Readable (.keyword k) := hr _ (by cases al <;> simp [PullAttr.forms])
    have hstar : ∀ rest (kk : Text → PRes PullAttr), expect "*" (print (.keyword k) ++ rest) kk = .fail := by
      intro rest kk
      rw [print]
      exact expect_fail (by simp [NName.displayKeyword, EdnParse.lit])
    cases al with
    | none =>
      rw [hs, PullAttr.forms, skip_printList hk, hstar, rawNsKeyword_reads hk hn (printList_delim _ hd)]
      simp [EdnParse.PRes.orElse, accept, bind, fwdOf, hf, printList, opt_fail hC]
    | some al =>
      have has : Readable (kwdE "as") := hr _ (by simp [PullAttr.forms])
      have hka : Readable (.keyword al) := hr _ (by simp [PullAttr.forms])
      rw [hs, PullAttr.forms, skip_printList hk, hstar, rawNsKeyword_reads hk hn (printList_delim _ hd)]
      have : pullAlias (skip (printList [kwdE "as", .keyword al] ++ tail)) = .ok al (skip tail) := by
        rw [skip_printList has, print_kwd, pullAlias,
          expect_ok (rest := printList [.keyword al] ++ tail) (by rfl), skip_printList hka,
          rawKeyword_reads hka (printList_delim _ hd)]
        simp [accept, bind, fwdOf, hal al rfl, printList]
      simp only [EdnParse.PRes.orElse, accept, bind, fwdOf, hf, if_true, opt_ok this]

theorem pullAttribute_alias {a : PullAttr} (ha : a.Ok) (hr : ∀ v ∈ a.forms, Readable v) (tail : Text) :
    pullAlias (skip (printList a.forms ++ tail)) = .fail := by
  cases a with
  | wildcard =>
    rw [PullAttr.forms, skip_printList (hr _ (by simp [PullAttr.forms])), print_sym]
    exact expect_fail (by simp [EdnParse.lit])
  | attr k al =>
    have hk : Readable (.keyword k) := hr _ (by cases al <;> simp [PullAttr.forms])
    cases al <;> rw [PullAttr.forms, skip_printList hk] <;> exact pullAlias_ns hk ha.1

theorem pullAttributes_read {ps : List PullAttr} (hne : ps ≠ []) (hok : ∀ p ∈ ps, p.Ok)
    (hr : ∀ v ∈ ps.flatMap PullAttr.forms, Readable v) (rest : Text) :
    many1 pullAttribute (printList (ps.flatMap PullAttr.forms) ++ ' ' :: ']' :: rest) = .ok ps (']' :: rest) := by
  have hr' : ∀ p ∈ ps, ∀ v ∈ p.forms, Readable v := fun p hp v hv => hr v (List.mem_flatMap.mpr ⟨p, hp, hv⟩)
  have := many1_chunks (R := pullAttribute) (fun t => pullAlias t = .fail) (ps.map fun p => (p.forms, p))
    (by simpa using hne)
    (by
      intro p hp s tail hd hC hs
      obtain ⟨a, ha, rfl⟩ := List.mem_map.mp hp
      exact pullAttribute_reads (hok a ha) (hr' a ha) hd hC hs)
    (by
      intro p hp tail hd
      obtain ⟨a, ha, rfl⟩ := List.mem_map.mp hp
      exact pullAttribute_alias (hok a ha) (hr' a ha) tail)
    (by
      intro p hp
      obtain ⟨a, ha, rfl⟩ := List.mem_map.mp hp
      refine ⟨?_, hr' a ha⟩
      rcases a with _ | ⟨k, _ | al⟩ <;> simp [PullAttr.forms])
    (s := printList (ps.flatMap PullAttr.forms) ++ ' ' :: ']' :: rest) (tail := ' ' :: ']' :: rest) (delim_sp _)
    (by rw [skip_sp_close (Or.inr rfl)]; exact expect_fail (by simp [EdnParse.lit]))
    (by
      rw [skip_sp_close (Or.inr rfl), pullAttribute, skip_close (Or.inr rfl),
        expect_fail (by simp [EdnParse.lit])]
      simp only [EdnParse.PRes.orElse, rawNsKeyword]
      rw [expect_fail (by simp [EdnParse.lit])]
      rfl)
    (by simp [List.flatMap_map])
  rw [this, skip_sp_close (Or.inr rfl)]
  simp [Function.comp_def]

/-! ### Find elements -/

theorem findElem_reads {e : Elem} (he : e.Ok) (hr : Readable e.form) : Reads (findElem) e.form e := by
  intro s rest hs hd
  cases e with
  | var x =>
    have := variable_reads he hr (skip s) rest (by rw [skip_skip]; exact hs) hd
    simp only [findElem, this, bind, EdnParse.PRes.orElse, skip_skip]
  | corresponding x =>
    have hmiss := variable_misses hr rfl (skip s) rest (by rw [skip_skip]; exact hs) hd
    have hrx : Readable (.plainSymbol x) := readable_list hr _ (by simp)
    simp only [findElem, hmiss, bind, EdnParse.PRes.orElse]
    rw [open_list_ok hr hs, (variable_reads he hrx).step hrx (l := []) rfl (delim_sp _)]
    simp only [printList, List.nil_append]
    rw [skip_sp_close (Or.inl rfl), expect_ok (rest := rest) (by rfl)]
  | pull x ps =>
    obtain ⟨hx, hne, hok⟩ := he
    have hmiss := variable_misses hr rfl (skip s) rest (by rw [skip_skip]; exact hs) hd
    have hrx : Readable (.plainSymbol x) := readable_list hr _ (by simp)
    have hrv : Readable (.vector (ps.flatMap PullAttr.forms)) := readable_list hr _ (by simp)
    have h1 : ∀ k : Text → PRes Elem, expect "(" (skip s) (fun r => expect "the" (skip r) k) = .fail :=
      fun k => open_list_fail hr hs (by decide) (by decide) k
    simp only [findElem, hmiss, bind, EdnParse.PRes.orElse]
    rw [h1, open_list_ok hr hs,
      (variable_reads hx hrx).step hrx (l := [.vector (ps.flatMap PullAttr.forms)]) rfl (delim_sp _)]
    simp only
    rw [skip_printList hrv, print_vector,
      expect_ok (rest := printList (ps.flatMap PullAttr.forms) ++ ' ' :: ']' :: (printList [] ++ ' ' :: ')' :: rest)) (by rfl),
      pullAttributes_read hne hok (readable_vector hrv)]
    simp only
    rw [expect_ok (rest := printList [] ++ ' ' :: ')' :: rest) (by rfl)]
    simp only [printList, List.nil_append]
    rw [skip_sp_close (Or.inl rfl), expect_ok (rest := rest) (by rfl)]
  | aggregate f args =>
    obtain ⟨hf, ha⟩ := he
    have hmiss := variable_misses hr rfl (skip s) rest (by rw [skip_skip]; exact hs) hd
    have h1 : ∀ k : Text → PRes Elem, expect "(" (skip s) (fun r => expect "the" (skip r) k) = .fail :=
      fun k => open_list_fail hr hs (by decide) (hf.2.2 _ (by simp)) k
    have h2 : ∀ k : Text → PRes Elem, expect "(" (skip s) (fun r => expect "pull" (skip r) k) = .fail :=
      fun k => open_list_fail hr hs (by decide) (hf.2.2 _ (by simp)) k
    have h3 := fn_head hf ha hr rest (fun f args r => .ok (Elem.aggregate f args) (skip r))
    have h4 : ∀ k : Text → PRes Elem, expect "(" (skip s) k =
        k (printList (.plainSymbol f :: Arg.forms args) ++ ' ' :: ')' :: rest) := by
      intro k
      rw [hs, Elem.form, print_list]
      exact expect_ok rfl
    simp only [findElem, hmiss, h1, h2]
    rw [h4, h3]
    rfl

/-- Find elements do not begin with a dot, nor a vector. -/
theorem elem_head {e : Elem} (he : e.Ok) (rest : Text) :
    ∃ c r, print e.form ++ rest = c :: r ∧ (c = '?' ∨ c = '(') := by
  cases e with
  | var x => obtain ⟨t, rfl⟩ := (he : IsVar x); rw [Elem.form, print]; exact ⟨_, _, rfl, Or.inl rfl⟩
  | corresponding x => rw [Elem.form, print_list]; exact ⟨_, _, rfl, Or.inr rfl⟩
  | pull x ps => rw [Elem.form, print_list]; exact ⟨_, _, rfl, Or.inr rfl⟩
  | aggregate f args => rw [Elem.form, print_list]; exact ⟨_, _, rfl, Or.inr rfl⟩

theorem findElem_misses {l : List Edn} (hr : Readable (.vector l)) : Misses (findElem) (.vector l) := by
  intro s rest hs hd
  have hmiss := variable_misses hr rfl (skip s) rest (by rw [skip_skip]; exact hs) hd
  have hp : ∀ k : Text → PRes Elem, expect "(" (skip s) k = .fail := fun k => expect_paren_vector hs k
  simp only [findElem, hmiss, bind, EdnParse.PRes.orElse, hp]

theorem findElem_noOpen {s : Text} (hv : variable_ (skip s) = .fail) (h : NoOpen (skip s)) : findElem s = .fail := by
  have hp : ∀ k : Text → PRes Elem, expect "(" (skip s) k = .fail := fun k => expect_fail (lit_noOpen h).2
  simp only [findElem, hv, bind, EdnParse.PRes.orElse, hp]

theorem findElem_stops : Stops (findElem) := by
  intro c r hc
  refine findElem_noOpen ?_ ?_ <;> rw [skip_close hc]
  · exact variable_stops _ _ hc
  · exact noOpen_close hc r

theorem AfterPart.findElem {t : Text} (h : AfterPart t) : findElem t = .fail := by
  refine findElem_noOpen ?_ ?_ <;> rw [h.skip_eq]
  · exact h.variable
  · exact h.noOpen

theorem elems_read {l : List Elem} (hne : l ≠ []) (hok : ∀ e ∈ l, e.Ok) (hr : ∀ v ∈ l.map Elem.form, Readable v)
    {s tail : Text} (hd : Delim tail) (hend : findElem (skip tail) = .fail)
    (hs : skip s = skip (printList (l.map Elem.form) ++ tail)) :
    many1 (findElem) s = .ok l (skip tail) := by
  obtain ⟨e, l, rfl⟩ := List.exists_cons_of_ne_nil hne
  have := many1_reads (R := QParse.findElem) (e.form, e) (l.map fun e => (e.form, e))
    (by
      intro p hp
      rw [← List.map_cons (f := fun e : Elem => (e.form, e))] at hp
      obtain ⟨e', he', rfl⟩ := List.mem_map.mp hp
      exact findElem_reads (hok e' he') (hr _ (List.mem_map_of_mem he')))
    (by
      intro p hp
      rw [← List.map_cons (f := fun e : Elem => (e.form, e))] at hp
      obtain ⟨e', he', rfl⟩ := List.mem_map.mp hp
      exact hr _ (List.mem_map_of_mem he'))
    (s := s) hd hend (by simpa [Function.comp_def] using hs)
  simpa [Function.comp_def] using this

theorem findSpec_reads {l : List Edn} {f : Find} (h : FindForm l f) (hr : ∀ v ∈ l, Readable v) {s tail : Text}
    (hd : Delim tail) (hC : AfterPart (skip tail)) (hs : skip s = skip (printList l ++ tail)) :
    findSpec s = .ok f (skip tail) := by
  unfold findSpec
  cases h with
  | @rel l hne hok =>
    have h2 := elems_read hne hok hr hd (hC.findElem) hs
    obtain ⟨e, l, rfl⟩ := List.exists_cons_of_ne_nil hne
    have he := hr e.form (by simp)
    have h1 := (findElem_reads (hok e (by simp)) he).step he (l := l.map Elem.form) hs hd
    have hdot : ∀ k : Text → PRes Find, expect "." (skip (printList (l.map Elem.form) ++ tail)) k = .fail := by
      intro k
      cases l with
      | nil => simp only [List.map_nil, printList, List.nil_append]; exact expect_fail (AfterPart.lit hC (c := '.') (by decide))
      | cons e' l =>
        rw [List.map_cons, skip_printList (hr _ (by simp))]
        obtain ⟨c, r, h, hc⟩ := elem_head (hok e' (by simp)) (printList (l.map Elem.form) ++ tail)
        rw [h]
        exact expect_fail (by rcases hc with rfl | rfl <;> simp [EdnParse.lit])
    simp only [h1, h2, bind, hdot, EdnParse.PRes.orElse]
  | @scalar e he =>
    have hre := hr e.form (by simp)
    have hrd := hr (symE ".") (by simp)
    have h1 := (findElem_reads he hre).step hre (l := [symE "."]) hs hd
    simp only [h1, bind]
    rw [skip_printList hrd, print_sym, expect_ok (rest := printList [] ++ tail) (by rfl)]
    simp [EdnParse.PRes.orElse, printList]
  | @coll e he =>
    have hrv := hr _ (List.mem_singleton.mpr rfl)
    have hre := readable_vector hrv e.form (by simp)
    have hrd := readable_vector hrv (symE "...") (by simp)
    have hs' := hs
    rw [skip_printList hrv] at hs'
    have h1 := findElem_misses hrv s _ hs' (printList_delim [] hd)
    have h2 : many1 (findElem) s = .fail := by simp only [many1, h1, bind]
    simp only [h1, h2, bind, EdnParse.PRes.orElse]
    rw [hs', print_vector, expect_ok (rest := printList [e.form, symE "..."] ++ ' ' :: ']' :: (printList [] ++ tail)) (by rfl),
      (findElem_reads he hre).step hre (l := [symE "..."]) rfl (delim_sp _)]
    simp only [skip_skip]
    rw [skip_printList hrd, print_sym, expect_ok (rest := printList [] ++ ' ' :: ']' :: (printList [] ++ tail)) (by rfl)]
    simp only [printList, List.nil_append]
    rw [skip_sp_close (Or.inr rfl), expect_ok (rest := tail) (by rfl)]
  | @tuple l hne hok =>
    have hrv := hr _ (List.mem_singleton.mpr rfl)
    have hs' := hs
    rw [skip_printList hrv] at hs'
    have h1 := findElem_misses hrv s _ hs' (printList_delim [] hd)
    have h2 : many1 (findElem) s = .fail := by simp only [many1, h1, bind]
    have h3 := elems_read hne hok (readable_vector hrv) (delim_sp (']' :: tail))
      (by rw [skip_sp_close (Or.inr rfl)]; exact findElem_stops _ _ (Or.inr rfl)) rfl
    obtain ⟨e, l, rfl⟩ := List.exists_cons_of_ne_nil hne
    have hre := readable_vector hrv e.form (by simp)
    have hdot : ∀ k : Text → PRes Find, expect "..." (skip (printList (l.map Elem.form) ++ ' ' :: ']' :: tail)) k = .fail := by
      intro k
      cases l with
      | nil =>
        simp only [List.map_nil, printList, List.nil_append]
        rw [skip_sp_close (Or.inr rfl)]
        exact expect_fail (by simp [EdnParse.lit])
      | cons e' l =>
        rw [List.map_cons, skip_printList (readable_vector hrv _ (by simp))]
        obtain ⟨c, r, h, hc⟩ := elem_head (hok e' (by simp)) (printList (l.map Elem.form) ++ ' ' :: ']' :: tail)
        rw [h]
        exact expect_fail (by rcases hc with rfl | rfl <;> simp [EdnParse.lit])
    have hb : ∀ k : Text → PRes Find, expect "[" (skip s) k = k (printList ((e :: l).map Elem.form) ++ ' ' :: ']' :: tail) := by
      intro k
      rw [hs', print_vector]
      exact expect_ok rfl
    have h4 := (findElem_reads (hok e (by simp)) hre).step hre (l := l.map Elem.form)
      (r := printList ((e :: l).map Elem.form) ++ ' ' :: ']' :: tail) rfl (delim_sp (']' :: tail))
    simp only [h1, h2, hb, h3, h4, bind, EdnParse.PRes.orElse, skip_skip, hdot]
    rw [skip_sp_close (Or.inr rfl), expect_ok (rest := tail) (by rfl)]

/-! ### Limits and orders -/

theorem limit_fixed {n : Nat} (hn : 0 < n) (hr : Readable (.integer n)) : Reads (limit) (.integer n) (.fixed n) := by
  intro s rest hs hd
  have hmiss := variable_misses hr rfl (skip s) rest (by rw [skip_skip]; exact hs) hd
  have hb : -(2 ^ 63) ≤ (n : Int) ∧ (n : Int) < 2 ^ 63 := by cases hr with | integer _ h1 h2 => exact ⟨h1, h2⟩
  rw [print] at hs
  simp only [limit, hmiss]
  simp only [bind, EdnParse.PRes.orElse, limitInt, hs, octal_fail _ (.inl hd), hex_fail _ (.inl hd), based_fail _ (.inl hd),
    integer_ok _ hb hd, accept, limitOf]
  simp [hn]

theorem limit_var {x : Text} (hx : IsVar x) (hr : Readable (.plainSymbol x)) : Reads (limit) (.plainSymbol x) (.var x) := by
  intro s rest hs hd
  have := variable_reads hx hr (skip s) rest (by rw [skip_skip]; exact hs) hd
  simp only [limit, this, bind, EdnParse.PRes.orElse, skip_skip]

theorem order_reads {v : Edn} {o : Bool × Text} (h : OrderForm v o) (hr : Readable v) : Reads (order) v o := by
  intro s rest hs hd
  unfold order
  cases h with
  | @plain x hx =>
    have h1 := variable_reads hx hr s rest hs hd
    obtain ⟨t, rfl⟩ := hx
    have hp : ∀ k : Text → PRes (Bool × Text), expect "(" (skip s) k = .fail := by
      intro k; rw [hs, print]; exact expect_fail (by simp [EdnParse.lit])
    simp only [hp, h1, bind, EdnParse.PRes.orElse]
  | @asc x hx =>
    have hrx : Readable (.plainSymbol x) := readable_list hr _ (by simp)
    rw [open_list_ok hr hs, (variable_reads hx hrx).step hrx (l := []) rfl (delim_sp _)]
    simp only [printList, List.nil_append, bind]
    rw [skip_sp_close (Or.inl rfl), expect_ok (rest := rest) (by rfl)]
    rfl
  | @desc x hx =>
    have hrx : Readable (.plainSymbol x) := readable_list hr _ (by simp)
    rw [open_list_fail hr hs (by decide) (by decide)]
    simp only [EdnParse.PRes.orElse]
    rw [open_list_ok hr hs, (variable_reads hx hrx).step hrx (l := []) rfl (delim_sp _)]
    simp only [printList, List.nil_append, bind]
    rw [skip_sp_close (Or.inl rfl), expect_ok (rest := rest) (by rfl)]

theorem AfterPart.order {t : Text} (h : AfterPart t) : order t = .fail := by
  have hp : ∀ k : Text → PRes (Bool × Text), expect "(" t k = .fail := fun k => expect_fail (lit_noOpen h.noOpen).2
  simp only [QParse.order, h.skip_eq, hp, h.variable, bind, EdnParse.PRes.orElse]

theorem AfterPart.clause {t : Text} (h : AfterPart t) : clause t = .fail :=
  clauseN_noOpen _ (by rw [h.skip_eq]; exact h.noOpen)

theorem ordersForm_pairs {l : List Edn} {os : List (Bool × Text)} (h : OrdersForm l os) :
    ∃ ps : List (Edn × (Bool × Text)), l = ps.map (·.1) ∧ os = ps.map (·.2) ∧ ∀ p ∈ ps, OrderForm p.1 p.2 := by
  induction h with
  | nil => exact ⟨[], rfl, rfl, by simp⟩
  | cons h1 _ ih =>
    obtain ⟨ps, rfl, rfl, hp⟩ := ih
    exact ⟨(_, _) :: ps, rfl, rfl, by
      intro p hp'
      rcases List.mem_cons.mp hp' with rfl | hp'
      · exact h1
      · exact hp p hp'⟩

/-! ### Parts -/

theorem pairs_read {R : Text → PRes α} {ps : List (Edn × α)} (hne : ps ≠ []) (hR : ∀ p ∈ ps, Reads R p.1 p.2)
    (hv : ∀ p ∈ ps, Readable p.1) {s tail : Text} (hd : Delim tail) (hend : R (skip tail) = .fail)
    (hs : skip s = skip (printList (ps.map (·.1)) ++ tail)) :
    many1 R s = .ok (ps.map (·.2)) (skip tail) := by
  obtain ⟨p, ps, rfl⟩ := List.exists_cons_of_ne_nil hne
  exact many1_reads p ps hR hv hd hend hs

theorem vars_read {xs : List Text} (hne : xs ≠ []) (hx : ∀ x ∈ xs, IsVar x)
    (hr : ∀ v ∈ xs.map Edn.plainSymbol, Readable v) {s tail : Text} (hd : Delim tail) (hend : variable_ (skip tail) = .fail)
    (hs : skip s = skip (printList (xs.map .plainSymbol) ++ tail)) :
    many1 (variable_) s = .ok xs (skip tail) := by
  have := pairs_read (R := variable_) (ps := xs.map fun x => (.plainSymbol x, x)) (by simpa using hne)
    (by
      intro p hp
      obtain ⟨x, hx', rfl⟩ := List.mem_map.mp hp
      exact variable_reads (hx x hx') (hr _ (List.mem_map_of_mem hx')))
    (by
      intro p hp
      obtain ⟨x, hx', rfl⟩ := List.mem_map.mp hp
      exact hr _ (List.mem_map_of_mem hx'))
    (s := s) hd hend (by simpa [Function.comp_def] using hs)
  simpa [Function.comp_def] using this

theorem open_part {w : String} {l : List Edn} (hr : Readable (kwdE w)) {s tail : Text} (hd : Delim tail)
    (hs : skip s = skip (printList (kwdE w :: l) ++ tail)) :
    (∀ w' (k : Text → PRes Part), (':' :: w.toList = w'.toList) → expect w' (skip s) k = k (printList l ++ tail)) ∧
    (∀ w' (k : Text → PRes Part), (∀ c ∈ w'.toList, c ∉ endChars) → ¬ w'.toList <+: ':' :: w.toList → expect w' (skip s) k = .fail) := by
  rw [hs, skip_printList hr, print_kwd]
  refine ⟨fun w' k hw => expect_ok (by rw [hw]), fun w' k hsp hp => expect_fail ?_⟩
  exact lit_none hsp (printList_delim l hd) hp

theorem queryPart_reads {l : List Edn} {p : Part} (h : PartForm l p) (hr : ∀ v ∈ l, Readable v) {s tail : Text}
    (hd : Delim tail) (hC : AfterPart (skip tail)) (hs : skip s = skip (printList l ++ tail)) :
    queryPart s = .ok p (skip tail) := by
  unfold queryPart
  cases h with
  | @find l f h =>
    obtain ⟨h1, -⟩ := open_part (hr _ (by simp)) hd hs
    rw [h1 ":find" _ (by decide), findSpec_reads h (fun v hv => hr v (by simp [hv])) hd hC rfl]
    rfl
  | @inVars xs hne hx =>
    obtain ⟨h1, h2⟩ := open_part (hr _ (by simp)) hd hs
    rw [h2 ":find" _ (by decide) (by decide), h1 ":in" _ (by decide),
      vars_read hne hx (fun v hv => hr v (by simp at hv ⊢; exact Or.inr hv)) hd (hC.variable) rfl]
    rfl
  | @withVars xs hne hx =>
    obtain ⟨h1, h2⟩ := open_part (hr _ (by simp)) hd hs
    rw [h2 ":find" _ (by decide) (by decide), h2 ":in" _ (by decide) (by decide), h2 ":limit" _ (by decide) (by decide),
      h2 ":order" _ (by decide) (by decide), h2 ":where" _ (by decide) (by decide), h1 ":with" _ (by decide),
      vars_read hne hx (fun v hv => hr v (by simp at hv ⊢; exact Or.inr hv)) hd (hC.variable) rfl]
    rfl
  | @limitFixed n hn =>
    obtain ⟨h1, h2⟩ := open_part (hr _ (by simp)) hd hs
    have hrn := hr (.integer n) (by simp)
    rw [h2 ":find" _ (by decide) (by decide), h2 ":in" _ (by decide) (by decide), h1 ":limit" _ (by decide),
      (limit_fixed hn hrn).step hrn (l := []) rfl hd]
    simp [bind, EdnParse.PRes.orElse, printList]
  | @limitVar x hx =>
    obtain ⟨h1, h2⟩ := open_part (hr _ (by simp)) hd hs
    have hrn := hr (.plainSymbol x) (by simp)
    rw [h2 ":find" _ (by decide) (by decide), h2 ":in" _ (by decide) (by decide), h1 ":limit" _ (by decide),
      (limit_var hx hrn).step hrn (l := []) rfl hd]
    simp [bind, EdnParse.PRes.orElse, printList]
  | @order l os h hne =>
    obtain ⟨h1, h2⟩ := open_part (hr _ (by simp)) hd hs
    obtain ⟨ps, rfl, rfl, hp⟩ := ordersForm_pairs h
    rw [h2 ":find" _ (by decide) (by decide), h2 ":in" _ (by decide) (by decide), h2 ":limit" _ (by decide) (by decide),
      h1 ":order" _ (by decide),
      pairs_read (by rintro rfl; exact hne rfl)
        (fun p hq => order_reads (hp p hq) (hr _ (List.mem_cons_of_mem _ (List.mem_map_of_mem hq))))
        (fun p hq => hr _ (List.mem_cons_of_mem _ (List.mem_map_of_mem hq))) hd (hC.order) rfl]
    rfl
  | @clauses l cs h hne =>
    obtain ⟨h1, h2⟩ := open_part (hr _ (by simp)) hd hs
    obtain ⟨ps, rfl, rfl, hp⟩ := clausesForm_pairs h
    rw [h2 ":find" _ (by decide) (by decide), h2 ":in" _ (by decide) (by decide), h2 ":limit" _ (by decide) (by decide),
      h2 ":order" _ (by decide) (by decide), h1 ":where" _ (by decide),
      pairs_read (by rintro rfl; exact hne rfl)
        (fun p hq => clause_reads (hp p hq) (hr _ (List.mem_cons_of_mem _ (List.mem_map_of_mem hq))))
        (fun p hq => hr _ (List.mem_cons_of_mem _ (List.mem_map_of_mem hq))) hd (hC.clause) rfl]
    rfl

theorem partForm_head {l : List Edn} {p : Part} (h : PartForm l p) : ∃ w m, l = kwdE w :: m := by
  cases h <;> exact ⟨_, _, rfl⟩

theorem partsForm_pairs {l : List Edn} {ps : List Part} (h : PartsForm l ps) :
    ∃ qs : List (List Edn × Part), l = qs.flatMap (·.1) ∧ ps = qs.map (·.2) ∧ ∀ q ∈ qs, PartForm q.1 q.2 := by
  induction h with
  | nil => exact ⟨[], rfl, rfl, by simp⟩
  | @cons v p l ps h1 _ ih =>
    obtain ⟨ps, rfl, rfl, hp⟩ := ih
    exact ⟨(v, p) :: ps, by simp, rfl, by
      intro p hp'
      rcases List.mem_cons.mp hp' with rfl | hp'
      · exact h1
      · exact hp p hp'⟩

theorem parts_read {l : List Edn} {ps : List Part} (h : PartsForm l ps) (hne : ps ≠ []) (hr : ∀ v ∈ l, Readable v) (rest : Text) :
    many1 (queryPart) (printList l ++ ' ' :: ']' :: rest) = .ok ps (']' :: rest) := by
  obtain ⟨qs, rfl, rfl, hq⟩ := partsForm_pairs h
  have hr' : ∀ q ∈ qs, ∀ v ∈ q.1, Readable v := fun q hq v hv => hr v (List.mem_flatMap.mpr ⟨q, hq, hv⟩)
  have hclose : skip (' ' :: ']' :: rest) = ']' :: rest := skip_sp_close (Or.inr rfl) rest
  have := many1_chunks (R := queryPart) (AfterPart) qs (by rintro rfl; exact hne rfl)
    (fun q hq' s tail hd hC hs => queryPart_reads (hq q hq') (hr' q hq') hd hC hs)
    (by
      intro q hq' tail hd
      obtain ⟨w, m, hm⟩ := partForm_head (hq q hq')
      have hw := hr' q hq' (kwdE w) (by simp [hm])
      rw [hm, skip_printList hw]
      exact Or.inr ⟨w, _, hw, printList_delim m hd, rfl⟩)
    (by
      intro q hq'
      obtain ⟨w, m, hm⟩ := partForm_head (hq q hq')
      exact ⟨by simp [hm], hr' q hq'⟩)
    (s := printList (qs.flatMap (·.1)) ++ ' ' :: ']' :: rest) (delim_sp (']' :: rest))
    (by rw [hclose]; exact Or.inl ⟨_, rfl⟩)
    (by
      have e : ∀ (w : String) (t : Text) (k : Text → PRes Part), w.toList = ':' :: t → expect w (skip (']' :: rest)) k = .fail := by
        intro w t k hw
        rw [skip_close (Or.inr rfl)]
        exact expect_fail (by simp [hw, EdnParse.lit])
      rw [hclose, queryPart, e ":find" _ _ rfl, e ":in" _ _ rfl, e ":limit" _ _ rfl, e ":order" _ _ rfl, e ":where" _ _ rfl,
        e ":with" _ _ rfl]
      rfl)
    rfl
  rwa [hclose] at this

/-- The text of a query's form is read as the query. -/
theorem parseQuery_reads {v : Edn} {l : List Edn} {ps : List Part} (hv : v = .vector l) (h : PartsForm l ps) (hne : ps ≠ [])
    (hr : Readable v) : parseQuery (print v) = match fromParts ps with | some q => .ok q [] | none => .fail := by
  subst hv
  have hs : skip (print (.vector l)) = print (.vector l) := by simpa using Starts.skip (print_starts hr) []
  have e := print_vector l []
  simp only [List.append_nil] at e
  unfold parseQuery
  rw [hs, e, expect_ok (rest := printList l ++ ' ' :: ']' :: []) (by rfl), parts_read h hne (readable_vector hr)]
  simp only [bind]
  rw [expect_ok (rest := []) (by rfl)]
  simp only [accept, bind]
  cases fromParts ps <;> rfl

end
end QParse
end Mentat
