import Verif.Spec.EntityForms
import Verif.Proofs.QueryParse
import Verif.Props.EdnOrder
/- Reading the printed form of a transaction. -/
namespace Mentat
namespace EParse
open Edn EdnParse QParse

/-! ### The order of keys -/

theorem keyCmp_order : OrderOn keyCmp (fun _ => True) := by
  have hk : OrderOn (fun a b : Keyword => pairCmp textCmp textCmp (a.ns, a.name) (b.ns, b.name)) (fun _ => True) :=
    (textCmp_order.pair textCmp_order).of_inj (fun a : Keyword => (a.ns, a.name)) (by simp)
      (by rintro ⟨a, b⟩ ⟨c, d⟩ - - h; simp at h; simp [h])
  constructor
  · rintro (a | a) -
    · exact intCmp_order.refl _ trivial
    · exact hk.refl _ trivial
  · rintro (a | a) (b | b) - - h
    · rw [intCmp_order.eq _ _ trivial trivial h]
    · simp [keyCmp] at h
    · simp [keyCmp] at h
    · rw [hk.eq _ _ trivial trivial h]
  · rintro (a | a) (b | b) - -
    · exact intCmp_order.swap _ _ trivial trivial
    · rfl
    · rfl
    · exact hk.swap _ _ trivial trivial
  · rintro (a | a) (b | b) (c | c) - - - h1 h2
    · exact intCmp_order.trans _ _ _ trivial trivial trivial h1 h2
    · rfl
    · cases h2
    · rfl
    · cases h1
    · cases h1
    · cases h2
    · exact hk.trans _ _ _ trivial trivial trivial h1 h2

theorem keyCmp_gt {a b : EntidOrIdent} (h : keyCmp a b = .gt) : keyCmp b a = .lt := by
  rw [keyCmp_order.swap a b trivial trivial, h]; rfl

theorem mapInsert_mem {k : EntidOrIdent} {v : V} {m : List (EntidOrIdent × V)} {p} (h : p ∈ mapInsert k v m) :
    p = (k, v) ∨ p ∈ m := by
  induction m with
  | nil => simpa [mapInsert] using h
  | cons q m ih =>
    obtain ⟨k', v'⟩ := q
    simp only [mapInsert] at h
    split at h
    · simpa using h
    · rename_i he
      have := keyCmp_order.eq _ _ trivial trivial he
      subst this
      simp only [List.mem_cons] at h ⊢
      rcases h with h | h <;> simp [h]
    · simp only [List.mem_cons] at h ⊢
      rcases h with h | h
      · simp [h]
      · rcases ih h with h | h <;> simp [h]

theorem mapInsert_ordered (k : EntidOrIdent) (v : V) {m : List (EntidOrIdent × V)} (h : Ordered m) :
    Ordered (mapInsert k v m) := by
  induction m with
  | nil => simp [mapInsert, Ordered]
  | cons q m ih =>
    obtain ⟨k', v'⟩ := q
    obtain ⟨h1, h2⟩ := List.pairwise_cons.mp h
    simp only [mapInsert]
    split
    · rename_i he
      refine List.pairwise_cons.mpr ⟨?_, h⟩
      intro p hp
      rcases List.mem_cons.mp hp with rfl | hp
      · exact he
      · exact keyCmp_order.trans _ _ _ trivial trivial trivial he (h1 p hp)
    · exact List.pairwise_cons.mpr ⟨h1, h2⟩
    · rename_i he
      refine List.pairwise_cons.mpr ⟨?_, ih h2⟩
      intro p hp
      rcases mapInsert_mem hp with rfl | hp
      · exact keyCmp_gt he
      · exact h1 p hp

theorem mapInsert_perm {k : EntidOrIdent} {v : V} {m : List (EntidOrIdent × V)} (h : k ∉ m.map (·.1)) :
    (mapInsert k v m).Perm ((k, v) :: m) := by
  induction m with
  | nil => exact .refl _
  | cons q m ih =>
    obtain ⟨k', v'⟩ := q
    simp only [List.map_cons, List.mem_cons, not_or] at h
    simp only [mapInsert]
    split
    · exact .refl _
    · rename_i he; exact absurd (keyCmp_order.eq _ _ trivial trivial he) h.1
    · exact (List.Perm.cons _ (ih h.2)).trans (List.Perm.swap ..)

theorem foldl_mapInsert_ordered (l : List (EntidOrIdent × V)) {m : List (EntidOrIdent × V)} (h : Ordered m) :
    Ordered (l.foldl (fun m p => mapInsert p.1 p.2 m) m) := by
  induction l generalizing m with
  | nil => exact h
  | cons p l ih => exact ih (mapInsert_ordered _ _ h)

theorem mapOf_ordered (l : List (EntidOrIdent × V)) : Ordered (mapOf l) :=
  foldl_mapInsert_ordered l (by simp [Ordered])

theorem foldl_mapInsert_perm (l : List (EntidOrIdent × V)) {m : List (EntidOrIdent × V)}
    (h : ((l ++ m).map (·.1)).Nodup) : (l.foldl (fun m p => mapInsert p.1 p.2 m) m).Perm (l ++ m) := by
  induction l generalizing m with
  | nil => exact .refl _
  | cons p l ih =>
    simp only [List.cons_append, List.map_cons, List.nodup_cons, List.map_append, List.mem_append, not_or] at h
    have h1 := mapInsert_perm (v := p.2) h.1.2
    have h2 : (l ++ mapInsert p.1 p.2 m).Perm (p :: (l ++ m)) :=
      (List.Perm.append_left l h1).trans List.perm_middle
    refine (ih ?_).trans h2
    rw [(h2.map _).nodup_iff]
    simpa using h

theorem mapOf_perm {l : List (EntidOrIdent × V)} (h : (l.map (·.1)).Nodup) : (mapOf l).Perm l := by
  have := foldl_mapInsert_perm l (m := []) (by simpa using h)
  simpa [mapOf] using this

theorem Ordered.nodup {m : List (EntidOrIdent × V)} (h : Ordered m) : (m.map (·.1)).Nodup := by
  refine List.pairwise_map.mpr (h.imp ?_)
  intro p q hpq he
  rw [he, keyCmp_order.refl _ trivial] at hpq
  simp at hpq

/-- A map is determined by its entries. -/
theorem Ordered.unique {m m' : List (EntidOrIdent × V)} (h : Ordered m) (h' : Ordered m') (hp : m.Perm m') : m = m' := by
  induction m generalizing m' with
  | nil => exact hp.nil_eq
  | cons p m ih =>
    cases m' with
    | nil => exact absurd hp.eq_nil (by simp)
    | cons q m' =>
      obtain ⟨h1, h2⟩ := List.pairwise_cons.mp h
      obtain ⟨h1', h2'⟩ := List.pairwise_cons.mp h'
      have e : p = q := by
        rcases List.mem_cons.mp (hp.subset List.mem_cons_self) with e | hm
        · exact e
        rcases List.mem_cons.mp (hp.symm.subset List.mem_cons_self) with e | hm'
        · exact e.symm
        have := keyCmp_order.trans _ _ _ trivial trivial trivial (h1 q hm') (h1' p hm)
        rw [keyCmp_order.refl _ trivial] at this
        simp at this
      subst e
      rw [ih h2 h2' ((List.perm_cons _).mp hp)]

theorem mapOf_eq {l m : List (EntidOrIdent × V)} (hp : m.Perm l) (ho : Ordered m) : mapOf l = m := by
  have hn : (l.map (·.1)).Nodup := (hp.map _).nodup_iff.mp ho.nodup
  exact (mapOf_ordered l).unique ho ((mapOf_perm hn).trans hp.symm)

/-! ### Forms and their text -/

theorem IdForm.readable {f e} (h : IdForm f e) : Readable f := by cases h <;> assumption

section

theorem starts_list (l : List Edn) : Starts (print (.list l)) := ⟨'(', _, by rw [print], by decide, by decide⟩
theorem starts_vector (l : List Edn) : Starts (print (.vector l)) := ⟨'[', _, by rw [print], by decide, by decide⟩
theorem starts_map (l : List Edn) : Starts (print (.map l)) := ⟨'{', _, by rw [print], by decide, by decide⟩

theorem EntForm.starts {f e} (h : EntForm f e) : Starts (print f) := by
  cases h with
  | tempId h => exact print_starts h
  | entid h => exact print_starts h.readable
  | lookupRef h _ => exact starts_list _
  | txFunction h => exact starts_list _

theorem PlaceForm.starts {f p} (h : PlaceForm f p) : Starts (print f) := by
  cases h with
  | atom h _ => exact print_starts h
  | lookupRef h _ => exact starts_list _
  | txFunction h => exact starts_list _
  | vector h => exact starts_vector _
  | map h => exact starts_map _

theorem EntityForm.starts {f p} (h : EntityForm f p) : Starts (print f) := by
  cases h with
  | forward => exact starts_vector _
  | backward => exact starts_vector _
  | map => exact starts_map _

theorem skip_step {v : Edn} (h : Starts (print v)) (l : List Edn) (tail : Text) :
    skip (printList (v :: l) ++ tail) = print v ++ (printList l ++ tail) := by
  rw [printList]
  simp only [List.cons_append, List.append_assoc]
  rw [skip_space, h.skip]

theorem print_map (l : List Edn) (rest : Text) :
    print (.map l) ++ rest = '{' :: (printList l ++ ' ' :: '}' :: rest) := by
  rw [print]; simp

theorem skip_sp_brace (r : Text) : skip (' ' :: '}' :: r) = '}' :: r := by
  rw [skip_space]; exact skip_delim_ne (by decide) (by decide)

/-- A rule that reads every item of a list, each of one or more forms, reads them all and stops where it does not match. -/
theorem many_items {R : Text → PRes α} (l : List (List Edn × α))
    (hl : ∀ p ∈ l, ∀ tail, Delim tail → R (skip (printList p.1 ++ tail)) = .ok p.2 (skip tail))
    (hv : ∀ p ∈ l, ∃ v m, p.1 = v :: m ∧ Starts (print v))
    {tail : Text} (hd : Delim tail) (hend : R (skip tail) = .fail) :
    many R (skip (printList (l.flatMap (·.1)) ++ tail)) = .ok (l.map (·.2)) (skip tail) := by
  have key : ∀ (l : List (List Edn × α)),
      (∀ p ∈ l, ∀ tail, Delim tail → R (skip (printList p.1 ++ tail)) = .ok p.2 (skip tail)) →
      ∀ n, l.length < n → manyN R n (skip (printList (l.flatMap (·.1)) ++ tail)) = .ok (l.map (·.2)) (skip tail) := by
    intro l hl
    induction l with
    | nil =>
      intro n hn
      obtain ⟨m, rfl⟩ : ∃ m, n = m + 1 := ⟨n - 1, by omega⟩
      simp [manyN, printList, hend]
    | cons p l ih =>
      intro n hn
      obtain ⟨m, rfl⟩ : ∃ m, n = m + 1 := ⟨n - 1, by omega⟩
      simp only [List.length_cons] at hn
      rw [List.flatMap_cons, printList_append, List.append_assoc, manyN, hl p (by simp) _ (printList_delim _ hd)]
      simp only [QParse.bind, List.map_cons]
      rw [ih (fun q hq => hl q (by simp [hq])) m (by omega)]
  unfold many
  refine key l hl _ ?_
  cases l with
  | nil => simp
  | cons q l =>
    obtain ⟨v, m, hq, hs⟩ := hv q (by simp)
    rw [List.flatMap_cons, hq, List.cons_append, skip_step hs]
    have h1 := printList_length (m ++ l.flatMap (·.1))
    have h3 : l.length ≤ (l.flatMap (·.1)).length := by
      have hv' : ∀ p ∈ l, p.1 ≠ [] := by
        intro p hp
        obtain ⟨v, m, h, -⟩ := hv p (by simp [hp])
        simp [h]
      clear hl hv hq h1
      induction l with
      | nil => simp
      | cons q' l ih =>
        have h4 := List.length_pos_iff.mpr (hv' q' (by simp))
        have := ih (fun p hp => hv' p (by simp [hp]))
        simp only [List.flatMap_cons, List.length_append, List.length_cons]
        omega
    obtain ⟨c, r, h2, -⟩ := hs
    simp only [List.length_append, h2, List.length_cons] at h1 ⊢
    omega

theorem lparen (r : Text) (k : Text → PRes α) : expect "(" ('(' :: r) k = k r := expect_ok rfl
theorem rparen (r : Text) (k : Text → PRes α) : expect ")" (')' :: r) k = k r := expect_ok rfl
theorem lbracket (r : Text) (k : Text → PRes α) : expect "[" ('[' :: r) k = k r := expect_ok rfl
theorem rbracket (r : Text) (k : Text → PRes α) : expect "]" (']' :: r) k = k r := expect_ok rfl
theorem lbrace (r : Text) (k : Text → PRes α) : expect "{" ('{' :: r) k = k r := expect_ok rfl
theorem rbrace (r : Text) (k : Text → PRes α) : expect "}" ('}' :: r) k = k r := expect_ok rfl

/-! ### Entities -/

theorem rawInt_reads {n : Int} (h : Readable (.integer n)) {rest : Text} (hd : Delim rest) :
    rawInt (print (.integer n) ++ rest) = .ok (.integer n) rest := by
  have hb : -(2 ^ 63) ≤ n ∧ n < 2 ^ 63 := by cases h with | integer _ h1 h2 => exact ⟨h1, h2⟩
  rw [print]
  simp only [rawInt, octal_fail _ (.inl hd), hex_fail _ (.inl hd), based_fail _ (.inl hd), integer_ok _ hb hd, EdnParse.PRes.orElse]

theorem rawInt_fail {c : Char} (h1 : isDigit c = false) (h2 : isSign c = false) (r : Text) : rawInt (c :: r) = .fail := by
  have := number_fail h1 h2 r
  unfold rawInt
  have hb := this
  simp only [number] at hb
  generalize bigint (c :: r) = x1 at hb
  generalize basedinteger (c :: r) = x2 at hb ⊢
  generalize hexinteger (c :: r) = x3 at hb ⊢
  generalize octalinteger (c :: r) = x4 at hb ⊢
  generalize EdnParse.integer (c :: r) = x5 at hb ⊢
  cases x1 <;> simp [EdnParse.PRes.orElse] at hb
  all_goals cases x2 <;> simp [EdnParse.PRes.orElse] at hb ⊢
  all_goals cases x3 <;> simp [EdnParse.PRes.orElse] at hb ⊢
  all_goals cases x4 <;> simp [EdnParse.PRes.orElse] at hb ⊢
  all_goals cases x5 <;> simp [EdnParse.PRes.orElse] at hb ⊢

theorem expect_char {w : String} {d : Char} {t : Text} (hw : w.toList = d :: t) {c : Char} (h : c ≠ d) (r : Text)
    (k : Text → PRes α) : expect w (c :: r) k = .fail :=
  expect_fail (by rw [hw]; simp [lit, Ne.symm h])

theorem rawNsKeyword_fail {c : Char} (h : c ≠ ':') (r : Text) : rawNsKeyword (c :: r) = .fail :=
  expect_char (w := ":") rfl h _ _

theorem entid_fail {c : Char} (h1 : isDigit c = false) (h2 : isSign c = false) (h3 : c ≠ ':') (r : Text) :
    entid (c :: r) = .fail := by
  simp only [entid, rawInt_fail h1 h2, rawNsKeyword_fail h3, accept, QParse.bind, EdnParse.PRes.orElse]

theorem print_keyword (k : NName) : ∃ r, print (.keyword k) = ':' :: r := by
  rw [print]; exact ⟨_, rfl⟩

theorem entid_reads {f : Edn} {e : EntidOrIdent} (h : IdForm f e) {rest : Text} (hd : Delim rest) :
    entid (print f ++ rest) = .ok e rest := by
  cases h with
  | entid h => simp only [entid, rawInt_reads h hd, accept, QParse.bind, entidOf, EdnParse.PRes.orElse]
  | @ident k h hn =>
    have h1 : rawInt (print (.keyword k) ++ rest) = .fail := by
      obtain ⟨r, e⟩ := print_keyword k
      rw [e]; exact rawInt_fail (by decide) (by decide) _
    simp only [entid, h1, rawNsKeyword_reads h hn hd, accept, QParse.bind, EdnParse.PRes.orElse]

theorem forwardEntid_reads {f : Edn} {e : EntidOrIdent} (h : IdForm f e) (hf : ∀ k, f = .keyword k → k.isForward = true)
    {rest : Text} (hd : Delim rest) : forwardEntid (print f ++ rest) = .ok e rest := by
  cases h with
  | entid h => simp only [forwardEntid, rawInt_reads h hd, accept, QParse.bind, entidOf, EdnParse.PRes.orElse]
  | @ident k h hn =>
    have h1 : rawInt (print (.keyword k) ++ rest) = .fail := by
      obtain ⟨r, e⟩ := print_keyword k
      rw [e]; exact rawInt_fail (by decide) (by decide) _
    simp [forwardEntid, h1, rawNsKeyword_reads h hn hd, accept, QParse.bind, EdnParse.PRes.orElse, fwdOf, hf k rfl]

theorem backward_kw {ns n : Text} {k k' : NName} (hk : NName.namespaced ns n = .ok k)
    (hk' : NName.namespaced ns ('_' :: n) = .ok k') (hr : Readable (.keyword k')) {rest : Text} (hd : Delim rest) :
    forwardEntid (print (.keyword k') ++ rest) = .fail ∧
    backwardEntid (print (.keyword k') ++ rest) = .ok (.ident k.keyword) rest := by
  obtain ⟨h1, h2, h3⟩ := reversed_kw hk hk'
  have h0 : rawInt (print (.keyword k') ++ rest) = .fail := by
    obtain ⟨r, e⟩ := print_keyword k'
    rw [e]; exact rawInt_fail (by decide) (by decide) _
  have hf : k'.isForward = false := by simp [NName.isForward, h1]
  constructor
  · simp [forwardEntid, h0, rawNsKeyword_reads hr h3 hd, accept, QParse.bind, EdnParse.PRes.orElse, fwdOf, hf]
  · simp [backwardEntid, rawNsKeyword_reads hr h3 hd, accept, QParse.bind, bwdOf, h1, h2]

/-! ### Lookup refs and transaction functions -/

theorem starts_lookup : Starts (print (symE "lookup-ref")) := by
  rw [print_sym]; exact ⟨'l', _, rfl, by decide, by decide⟩

theorem lookupRef_reads {f v : Edn} {a : EntidOrIdent} (h : IdForm f a) (hv : Readable v) {rest : Text} :
    lookupRef (print (.list [symE "lookup-ref", f, v]) ++ rest) = .ok (a, v) rest := by
  unfold lookupRef
  rw [print_list, lparen, skip_step (starts_lookup), print_sym, expect_ok rfl,
    skip_step (print_starts h.readable), entid_reads h (printList_delim _ (delim_sp _))]
  simp only [QParse.bind]
  rw [(val_reads hv).step hv (l := []) (tail := ' ' :: ')' :: rest) (by rw [skip_skip]) (delim_sp _)]
  simp only [printList, List.nil_append, skip_skip]
  rw [skip_sp_close (Or.inl rfl), rparen]

theorem lookupRef_fail {c : Char} (h : c ≠ '(') (r : Text) : lookupRef (c :: r) = .fail :=
  expect_char (w := "(") rfl h _ _

theorem txFunction_fail {c : Char} (h : c ≠ '(') (r : Text) : txFunction (c :: r) = .fail :=
  expect_char (w := "(") rfl h _ _

theorem txFunction_reads {n : Text} (h : TxName n) {rest : Text} :
    lookupRef (print (.list [.plainSymbol n]) ++ rest) = .fail ∧
    txFunction (print (.list [.plainSymbol n]) ++ rest) = .ok n rest := by
  have hs := print_starts h.1
  constructor
  · unfold lookupRef
    rw [print_list, lparen, skip_step hs, print]
    exact expect_fail (fnName_lit h.2 (by simp) (by decide) (printList_delim _ (delim_sp _)))
  · unfold txFunction
    rw [print_list, lparen, skip_step hs, print]
    simp only [symbolName_ok (fnName_valid h.2 h.1) (printList_delim [] (delim_sp (')' :: rest)))]
    simp only [printList, List.nil_append]
    rw [skip_sp_close (Or.inl rfl), rparen]

/-! ### The entity of an assertion -/

theorem text_reads {s : Text} (h : Readable (.text s)) {rest : Text} :
    EdnParse.text (print (.text s) ++ rest) = .ok (.text s) rest := by
  cases h with
  | text _ h =>
    rw [print]
    simp [EdnParse.text, textTail_ok h rest]

theorem id_head {f : Edn} {e : EntidOrIdent} (h : IdForm f e) :
    ∃ c r, print f = c :: r ∧ c ≠ '"' ∧ c ≠ '(' ∧ c ≠ '[' ∧ c ≠ '{' := by
  cases h with
  | @entid n h =>
    obtain ⟨c, r, h, hc⟩ := intText_head n
    refine ⟨c, r, by rw [print, h], ?_⟩
    rcases hc with hc | rfl
    · refine ⟨?_, ?_, ?_, ?_⟩ <;> rintro rfl <;> revert hc <;> decide
    · decide
  | @ident k =>
    obtain ⟨r, h⟩ := print_keyword k
    exact ⟨_, r, h, by decide⟩

theorem entityPlace_reads {f : Edn} {e : EntityPlace Edn} (h : EntForm f e) {rest : Text} (hd : Delim rest) :
    entityPlace (print f ++ rest) = .ok e rest := by
  cases h with
  | tempId h => simp [entityPlace, text_reads h, accept, QParse.bind, textOf, EdnParse.PRes.orElse]
  | @entid _ a h =>
    have ht : EdnParse.text (print f ++ rest) = .fail := by
      obtain ⟨c, r, h, hc, -⟩ := id_head h
      rw [h]; exact text_fail hc _
    simp [entityPlace, ht, entid_reads h hd, accept, QParse.bind, EdnParse.PRes.orElse]
  | @lookupRef f a v h hv =>
    have h1 := lookupRef_reads h hv (rest := rest)
    have ht : EdnParse.text (print (.list [symE "lookup-ref", f, v]) ++ rest) = .fail := by
      rw [print_list]; exact text_fail (by decide) _
    have he : entid (print (.list [symE "lookup-ref", f, v]) ++ rest) = .fail := by
      rw [print_list]; exact entid_fail (by decide) (by decide) (by decide) _
    simp only [entityPlace, ht, he, h1, accept, QParse.bind, EdnParse.PRes.orElse]
  | @txFunction n h =>
    obtain ⟨h1, h2⟩ := txFunction_reads h (rest := rest)
    have ht : EdnParse.text (print (.list [.plainSymbol n]) ++ rest) = .fail := by
      rw [print_list]; exact text_fail (by decide) _
    have he : entid (print (.list [.plainSymbol n]) ++ rest) = .fail := by
      rw [print_list]; exact entid_fail (by decide) (by decide) (by decide) _
    simp only [entityPlace, ht, he, h1, h2, accept, QParse.bind, EdnParse.PRes.orElse]

theorem entityPlace_fail {c : Char} (h1 : isDigit c = false) (h2 : isSign c = false) (h3 : c ≠ ':') (h4 : c ≠ '"')
    (h5 : c ≠ '(') (r : Text) : entityPlace (c :: r) = .fail := by
  simp only [entityPlace, text_fail h4, entid_fail h1 h2 h3, lookupRef_fail h5, txFunction_fail h5, accept, QParse.bind,
    EdnParse.PRes.orElse]

/-- A value that can stand for an entity is read as an entity or not at all. -/
theorem entityPlace_value {f : Edn} {p : ValuePlace Edn} (h : PlaceForm f p) (hp : RefAtom p) {rest : Text} (hd : Delim rest) :
    entityPlace (print f ++ rest) = .fail ∨ ∃ e, entityPlace (print f ++ rest) = .ok e rest := by
  cases h with
  | atom h ha =>
    cases h with
    | text s h => exact Or.inr ⟨_, entityPlace_reads (.tempId (.text s h)) hd⟩
    | integer n h1 h2 => exact Or.inr ⟨_, entityPlace_reads (.entid (.entid (.integer n h1 h2))) hd⟩
    | plainKeyword k n h1 h2 => exact Or.inr ⟨_, entityPlace_reads (.entid (.ident (.plainKeyword k n h1 h2) hp)) hd⟩
    | nsKeyword k ns n h1 h2 h3 => exact Or.inr ⟨_, entityPlace_reads (.entid (.ident (.nsKeyword k ns n h1 h2 h3) hp)) hd⟩
    | _ => exact absurd hp (by simp [RefAtom])
  | lookupRef h hv => exact Or.inr ⟨_, entityPlace_reads (.lookupRef h hv) hd⟩
  | txFunction h => exact Or.inr ⟨_, entityPlace_reads (.txFunction h) hd⟩
  | vector h =>
    left; rw [print_vector]; exact entityPlace_fail (by decide) (by decide) (by decide) (by decide) (by decide) _
  | map h =>
    left; rw [print_map]; exact entityPlace_fail (by decide) (by decide) (by decide) (by decide) (by decide) _

/-! ### The value of an assertion -/

theorem atom_head {v : Edn} (h : Readable v) (ha : IsAtom v) :
    ∃ c r, print v = c :: r ∧ c ≠ '(' ∧ c ≠ '[' ∧ c ≠ '{' := by
  have hinit : ∀ {c : Char}, isInitial c = true → c ≠ '(' ∧ c ≠ '[' ∧ c ≠ '{' := by
    intro c h; refine ⟨?_, ?_, ?_⟩ <;> rintro rfl <;> revert h <;> decide
  obtain ⟨a1, a2, a3, a4⟩ := ha
  cases h with
  | nil => exact ⟨_, _, by rw [print], by decide⟩
  | boolean b => cases b <;> exact ⟨_, _, by rw [print], by decide⟩
  | integer n =>
    obtain ⟨c, r, h, hc⟩ := intText_head n
    refine ⟨c, r, by rw [print, h], ?_⟩
    rcases hc with hc | rfl
    · exact hinit (by simp [isInitial, hc])
    · decide
  | bigInteger n =>
    obtain ⟨c, r, h, hc⟩ := intText_head n
    refine ⟨c, r ++ ['N'], by rw [print, h]; rfl, ?_⟩
    rcases hc with hc | rfl
    · exact hinit (by simp [isInitial, hc])
    · decide
  | instant t => exact ⟨_, _, by rw [print]; rfl, by decide⟩
  | uuid u => exact ⟨_, _, by rw [print]; rfl, by decide⟩
  | float f hf =>
    obtain ⟨c, r, e, -⟩ := print_float hf
    exact ⟨_, _, by rw [e]; rfl, by decide⟩
  | fraction d =>
    obtain ⟨c, r, h, hc⟩ := floatText_head d
    refine ⟨c, r, by rw [print, h], ?_⟩
    rcases hc with hc | rfl
    · exact hinit (by simp [isInitial, hc])
    · decide
  | text s => exact ⟨_, _, by rw [print]; rfl, by decide⟩
  | plainSymbol s h1 =>
    rcases h1 with ⟨c, r, rfl, hc, -⟩ | rfl | rfl
    · exact ⟨_, _, by rw [print], hinit hc⟩
    · exact ⟨_, _, by rw [print], by decide⟩
    · exact ⟨_, _, by rw [print], by decide⟩
  | nsSymbol k ns n hk h1 =>
    obtain ⟨c, r, rfl, hc, -⟩ := h1
    have := namespaced_eq hk
    subst this
    exact ⟨c, r ++ '/' :: n, by rw [print]; simp [NName.display], hinit hc⟩
  | plainKeyword k n hk => exact ⟨_, _, by rw [print]; rfl, by decide⟩
  | nsKeyword k ns n hk => exact ⟨_, _, by rw [print]; rfl, by decide⟩
  | vector l => exact absurd rfl (a1 l)
  | list l => exact absurd rfl (a2 l)
  | set l => exact absurd rfl (a3 l)
  | map l => exact absurd rfl (a4 _)

theorem atomOf_atom {v : Edn} (ha : IsAtom v) : atomOf v = some v := by
  obtain ⟨h1, h2, h3, h4⟩ := ha
  cases v <;> simp_all [atomOf]

theorem mapNotation_fail {c : Char} (h : c ≠ '{') (vp : Text → PRes (ValuePlace Edn)) (r : Text) :
    mapNotation vp (c :: r) = .fail := expect_char (w := "{") rfl h _ _

theorem close_ne {c : Char} (h : c = ')' ∨ c = ']' ∨ c = '}') :
    c ≠ '(' ∧ c ≠ '[' ∧ c ≠ '{' ∧ c ≠ '"' ∧ c ≠ ':' ∧ isDigit c = false ∧ isSign c = false ∧ isWs c = false ∧ c ≠ ';' := by
  rcases h with rfl | rfl | rfl <;> decide

theorem placeN_stops (n : Nat) {c : Char} (h : c = ')' ∨ c = ']' ∨ c = '}') (r : Text) : placeN (n + 1) (c :: r) = .fail := by
  obtain ⟨h1, h2, h3, -, -, -, -, h4, h5⟩ := close_ne h
  have hv : val (c :: r) = .fail := value_close (by simp only [List.length_cons]; omega) h r
  simp only [placeN, skip_delim_ne h4 h5, lookupRef_fail h1, txFunction_fail h1, expect_char (w := "[") rfl h2,
    mapNotation_fail h3, hv, accept, QParse.bind, EdnParse.PRes.orElse]

theorem pair_stops (vp : Text → PRes (ValuePlace Edn)) {c : Char} (h : c = ')' ∨ c = ']' ∨ c = '}') (r : Text) :
    pair vp (c :: r) = .fail := by
  obtain ⟨-, -, -, -, h1, h2, h3, -, -⟩ := close_ne h
  simp only [pair, entid_fail h2 h3 h1, QParse.bind]

theorem PlacesForm.items {l ps} (h : PlacesForm l ps) : ∃ q : List (List Edn × ValuePlace Edn),
    l = q.flatMap (·.1) ∧ ps = q.map (·.2) ∧ ∀ x ∈ q, ∃ v, x.1 = [v] ∧ v ∈ l ∧ PlaceForm v x.2 := by
  match h with
  | .nil => exact ⟨[], by simp⟩
  | .cons (v := v) (p := p) h1 h2 =>
    obtain ⟨q, e1, e2, e3⟩ := h2.items
    refine ⟨([v], p) :: q, by simp [e1], by simp [e2], ?_⟩
    intro x hx
    rcases List.mem_cons.mp hx with rfl | hx
    · exact ⟨v, rfl, by simp, h1⟩
    · obtain ⟨w, h3, h4, h5⟩ := e3 x hx
      exact ⟨w, h3, by simp [h4], h5⟩

theorem PairsForm.items {l ps} (h : PairsForm l ps) : ∃ q : List (List Edn × (EntidOrIdent × ValuePlace Edn)),
    l = q.flatMap (·.1) ∧ ps = q.map (·.2) ∧
    ∀ x ∈ q, ∃ k v, x.1 = [k, v] ∧ v ∈ l ∧ IdForm k x.2.1 ∧ PlaceForm v x.2.2 := by
  match h with
  | .nil => exact ⟨[], by simp⟩
  | .cons (k := k) (a := a) (v := v) (p := p) h1 h2 h3 =>
    obtain ⟨q, e1, e2, e3⟩ := h3.items
    refine ⟨([k, v], (a, p)) :: q, by simp [e1], by simp [e2], ?_⟩
    intro x hx
    rcases List.mem_cons.mp hx with rfl | hx
    · exact ⟨k, v, rfl, by simp, h1, h2⟩
    · obtain ⟨k', w, h3, h4, h5⟩ := e3 x hx
      exact ⟨k', w, h3, by simp [h4], h5⟩

/-- Map notation, given that its values are read. -/
theorem mapNotation_reads {vp : Text → PRes (ValuePlace Edn)} {l : List Edn} {ps m : List (EntidOrIdent × ValuePlace Edn)}
    (h : PairsForm l ps) (hp : m.Perm ps) (ho : Ordered m)
    (hvp : ∀ v p, v ∈ l → PlaceForm v p → Reads vp v p) {rest : Text} :
    mapNotation vp (print (.map l) ++ rest) = .ok m rest := by
  obtain ⟨q, e1, e2, e3⟩ := h.items
  have key := many_items (R := pair vp) q ?_ ?_ (delim_sp ('}' :: rest))
    (by rw [skip_sp_brace]; exact pair_stops vp (by simp) _)
  · unfold mapNotation
    rw [print_map, lbrace, e1, key]
    simp only [QParse.bind, skip_skip]
    rw [skip_sp_brace, rbrace, ← e2, mapOf_eq hp ho]
  · intro x hx tail hd
    obtain ⟨k, v, h1, h2, h3, h4⟩ := e3 x hx
    rw [h1, skip_step (print_starts h3.readable)]
    simp only [pair]
    rw [entid_reads h3 (printList_delim _ hd)]
    simp only [QParse.bind]
    rw [skip_step (h4.starts), hvp v _ h2 h4 _ tail ?_ hd]
    rw [(h4.starts).skip]; simp [printList]
  · intro x hx
    obtain ⟨k, v, h1, h2, h3, h4⟩ := e3 x hx
    exact ⟨k, [v], h1, print_starts h3.readable⟩

theorem placeN_reads (n : Nat) : ∀ v p, PlaceForm v p → (print v).length < n → Reads (placeN n) v p := by
  induction n with
  | zero => intro v p _ h; omega
  | succ n ih =>
    intro v p h hn s rest hs hd
    rw [placeN, hs]
    cases h with
    | atom h ha =>
      obtain ⟨c, r, hc, h1, h2, h3⟩ := atom_head h ha
      have hv := val_reads h (print v ++ rest) rest ((print_starts h).skip rest) hd
      have e1 : lookupRef (print v ++ rest) = .fail := by rw [hc]; exact lookupRef_fail h1 _
      have e2 : txFunction (print v ++ rest) = .fail := by rw [hc]; exact txFunction_fail h1 _
      have e3 : ∀ k : Text → PRes (ValuePlace Edn), expect "[" (print v ++ rest) k = .fail := by
        intro k; rw [hc]; exact expect_char (w := "[") rfl h2 _ _
      have e4 : mapNotation (placeN n) (print v ++ rest) = .fail := by rw [hc]; exact mapNotation_fail h3 _ _
      simp only [e1, e2, e3, e4, hv, accept, atomOf_atom ha, QParse.bind, EdnParse.PRes.orElse, skip_skip]
    | lookupRef h hv =>
      rw [lookupRef_reads h hv]
      simp only [QParse.bind, EdnParse.PRes.orElse]
    | txFunction h =>
      obtain ⟨h1, h2⟩ := txFunction_reads h (rest := rest)
      simp only [h1, h2, QParse.bind, EdnParse.PRes.orElse]
    | @vector l vs h =>
      obtain ⟨q, e1, e2, e3⟩ := h.items
      rw [print] at hn
      simp only [List.length_cons, List.length_append] at hn
      have h0 : 0 < n := by omega
      obtain ⟨m, rfl⟩ : ∃ m, n = m + 1 := ⟨n - 1, by omega⟩
      have key := many_items (R := placeN (m + 1)) q ?_ ?_ (delim_sp (']' :: rest))
        (by rw [skip_sp_close (Or.inr rfl)]; exact placeN_stops m (by simp) _)
      · rw [print_vector, lookupRef_fail (by decide), txFunction_fail (by decide)]
        simp only [QParse.bind, EdnParse.PRes.orElse]
        rw [lbracket, e1, key]
        simp only [skip_skip]
        rw [skip_sp_close (Or.inr rfl), rbracket, ← e2]
      · intro x hx tail hd'
        obtain ⟨w, h1, h2, h3⟩ := e3 x hx
        rw [h1]
        have := print_mem_lt h2
        refine ih w _ h3 (by omega) _ tail ?_ hd'
        rw [skip_skip, skip_step (h3.starts)]; simp [printList]
      · intro x hx
        obtain ⟨w, h1, h2, h3⟩ := e3 x hx
        exact ⟨w, [], h1, h3.starts⟩
    | @map l ps m h hp ho =>
      rw [print] at hn
      simp only [List.length_cons, List.length_append] at hn
      have key := mapNotation_reads (vp := placeN n) h hp ho (rest := rest) (by
        intro w q hw hq
        have := print_mem_lt hw
        exact ih w q hq (by omega))
      rw [key]
      rw [print_map, lookupRef_fail (by decide), txFunction_fail (by decide), expect_char (w := "[") rfl (by decide)]
      simp only [QParse.bind, EdnParse.PRes.orElse]

theorem place_reads {v : Edn} {p : ValuePlace Edn} (h : PlaceForm v p) : Reads (place) v p := by
  intro s rest hs hd
  have hl := skip_length s
  rw [hs] at hl
  simp only [List.length_append] at hl
  exact placeN_reads _ v p h (by omega) s rest hs hd

theorem op_reads (o : Op) {rest : Text} (hd : Delim rest) : op (print (opForm o) ++ rest) = .ok o rest := by
  cases o with
  | add =>
    have e : print (opForm .add) = ":db/add".toList := by rw [opForm, print]; rfl
    simp only [op, e, expect_ok rfl, EdnParse.PRes.orElse]
  | retract =>
    have e : print (opForm .retract) = ":db/retract".toList := by rw [opForm, print]; rfl
    have : ∀ k : Text → PRes Op, expect ":db/add" (":db/retract".toList ++ rest) k = .fail := by
      intro k; exact expect_fail (lit_none (by decide) hd (by decide))
    simp only [op, e, this, expect_ok rfl, EdnParse.PRes.orElse]

theorem opForm_starts (o : Op) : Starts (print (opForm o)) := by
  cases o <;> rw [opForm, print] <;> exact ⟨':', _, rfl, by decide, by decide⟩

theorem entity_reads {v : Edn} {e : TxEntity Edn} (h : EntityForm v e) : Reads (entity) v e := by
  intro s rest hs hd
  rw [entity, hs]
  cases h with
  | @forward o f f' a a' w w' hf ha hfw hw =>
    have h1 := op_reads o (printList_delim [f, a, w] (delim_sp (']' :: rest)))
    have h2 := entityPlace_reads hf (printList_delim [a, w] (delim_sp (']' :: rest)))
    have h3 := forwardEntid_reads ha hfw (printList_delim [w] (delim_sp (']' :: rest)))
    have h4 := place_reads hw (skip (printList [w] ++ ' ' :: ']' :: rest)) (printList [] ++ ' ' :: ']' :: rest)
      (by rw [skip_skip, skip_step (hw.starts)]) (delim_sp _)
    rw [print_vector, lbracket, skip_step (opForm_starts o), h1]
    simp only [QParse.bind]
    rw [skip_step (hf.starts), h2]
    simp only [QParse.bind]
    rw [skip_step (print_starts ha.readable), h3]
    simp only [QParse.bind]
    rw [h4]
    simp only [printList, List.nil_append, skip_skip]
    rw [skip_sp_close (Or.inr rfl), rbracket]
    rfl
  | @backward o f f' ns n k k' w w' hf hw href hk hk' hr =>
    have h1 := op_reads o (printList_delim [w, .keyword k', f] (delim_sp (']' :: rest)))
    have h2 := entityPlace_value hw href (printList_delim [.keyword k', f] (delim_sp (']' :: rest)))
    obtain ⟨h3, h3'⟩ := backward_kw hk hk' hr (printList_delim [f] (delim_sp (']' :: rest)))
    have h4 := place_reads hw (skip (printList [w, .keyword k', f] ++ ' ' :: ']' :: rest))
      (printList [.keyword k', f] ++ ' ' :: ']' :: rest)
      (by rw [skip_skip, skip_step (hw.starts)]) (printList_delim _ (delim_sp _))
    have h5 := entityPlace_reads hf (printList_delim [] (delim_sp (']' :: rest)))
    have e0 := skip_step (opForm_starts o) [w, .keyword k', f] (' ' :: ']' :: rest)
    have e1 := skip_step (hw.starts) [.keyword k', f] (' ' :: ']' :: rest)
    have e2 := skip_step (print_starts hr) [f] (' ' :: ']' :: rest)
    have e3 := skip_step (hf.starts) [] (' ' :: ']' :: rest)
    have first : ∀ k : Op → EntityPlace Edn → EntidOrIdent → Text → PRes (TxEntity Edn),
        (QParse.bind (entityPlace (print w ++ (printList [.keyword k', f] ++ ' ' :: ']' :: rest))) fun e r =>
          QParse.bind (forwardEntid (skip r)) fun a r => k o e a r) = .fail := by
      intro k
      rcases h2 with h2 | ⟨e, h2⟩
      · rw [h2]; rfl
      · rw [h2]
        simp only [QParse.bind]
        rw [e2, h3]
    have alt1 : (expect "[" (print (.vector [opForm o, w, .keyword k', f]) ++ rest) fun r => QParse.bind (op (skip r)) fun o r =>
        QParse.bind (entityPlace (skip r)) fun e r => QParse.bind (forwardEntid (skip r)) fun a r =>
        QParse.bind (place (skip r)) fun v r => expect "]" (skip r) fun r => .ok (TxEntity.addOrRetract o e a v) (skip r)) = .fail := by
      rw [print_vector, lbracket, e0, h1]
      simp only [QParse.bind]
      rw [e1]
      exact first fun o e a r => QParse.bind (place (skip r)) fun v r => expect "]" (skip r) fun r => .ok (TxEntity.addOrRetract o e a v) (skip r)
    rw [alt1]
    simp only [EdnParse.PRes.orElse]
    rw [print_vector, lbracket, e0, h1]
    simp only [QParse.bind]
    rw [h4]
    simp only [skip_skip]
    rw [e2, h3']
    simp only
    rw [e3, h5]
    simp only [printList, List.nil_append]
    rw [skip_sp_close (Or.inr rfl), rbracket]
  | @map l ps m h hp ho =>
    have key := mapNotation_reads (vp := place) h hp ho (rest := rest) (fun w q _ hq => place_reads hq)
    rw [key, print_map, expect_char (w := "[") rfl (by decide), expect_char (w := "[") rfl (by decide)]
    simp only [QParse.bind, EdnParse.PRes.orElse]

theorem entity_stops {c : Char} (h : c = ')' ∨ c = ']' ∨ c = '}') (r : Text) : entity (c :: r) = .fail := by
  obtain ⟨-, h1, h2, -, -, -, -, h3, h4⟩ := close_ne h
  simp only [entity, skip_delim_ne h3 h4, expect_char (w := "[") rfl h1, mapNotation_fail h2, QParse.bind, EdnParse.PRes.orElse]

theorem EntitiesForm.items {l es} (h : EntitiesForm l es) : ∃ q : List (List Edn × TxEntity Edn),
    l = q.flatMap (·.1) ∧ es = q.map (·.2) ∧ ∀ x ∈ q, ∃ v, x.1 = [v] ∧ EntityForm v x.2 := by
  induction h with
  | nil => exact ⟨[], by simp⟩
  | @cons v e l es h1 h2 ih =>
    obtain ⟨q, e1, e2, e3⟩ := ih
    refine ⟨([v], e) :: q, by simp [e1], by simp [e2], ?_⟩
    intro x hx
    rcases List.mem_cons.mp hx with rfl | hx
    · exact ⟨v, rfl, h1⟩
    · exact e3 x hx

/-- The text of a transaction is read as its entities. -/
theorem parseEntities_reads {v : Edn} {es : List (TxEntity Edn)} (h : TxForm v es) :
    parseEntities (print v) = .ok es [] := by
  obtain ⟨l, rfl, h⟩ := h
  obtain ⟨q, e1, e2, e3⟩ := h.items
  have key := many_items (R := entity) q ?_ ?_ (delim_sp [']'])
    (by rw [skip_sp_close (Or.inr rfl)]; exact entity_stops (by simp) _)
  · have := print_vector l []
    rw [List.append_nil] at this
    unfold parseEntities entities
    rw [this, skip_delim_ne (by decide) (by decide), lbracket, e1, key]
    simp only [QParse.bind, skip_skip]
    rw [skip_sp_close (Or.inr rfl), rbracket, ← e2]
    rfl
  · intro x hx tail hd
    obtain ⟨w, h1, h3⟩ := e3 x hx
    rw [h1]
    refine entity_reads h3 _ tail ?_ hd
    rw [skip_skip, skip_step (h3.starts)]; simp [printList]
  · intro x hx
    obtain ⟨w, h1, h3⟩ := e3 x hx
    exact ⟨w, [], h1, h3.starts⟩
end

end EParse
end Mentat
