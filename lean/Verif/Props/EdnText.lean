import Verif.Spec.EdnText
import Verif.Proofs.KernelRfl
/- C85: reading does not depend on how values are spaced. -/
namespace Mentat.EdnText
open Mentat Edn EdnParse

/-! ### Blanks -/

theorem skipF_comment {s : Text} (hs : ∀ c ∈ s, c ≠ '\r' ∧ c ≠ '\n') {e : Char} (he : e = '\r' ∨ e = '\n') (r : Text) :
    skipF true (s ++ e :: r) = skipF false r := by
  induction s with
  | nil => rcases he with rfl | rfl <;> simp [skipF]
  | cons c s ih =>
    have := hs c (by simp)
    simp [skipF, this, ih fun d hd => hs d (by simp [hd])]

theorem skip_blank {w : Text} (h : Blank w) (r : Text) : skip (w ++ r) = skip r := by
  induction h with
  | nil => rfl
  | space hc _ ih =>
    unfold skip at ih ⊢
    simp [skipF, hc, ih]
  | @comment s w e hs he _ ih =>
    unfold skip at ih ⊢
    have hw : isWs ';' = false := by decide
    rw [List.cons_append, skipF]
    simp only [hw, Bool.false_eq_true, if_false, if_true]
    rw [List.append_assoc, List.cons_append, skipF_comment hs he, ih]

theorem ws_end {c : Char} (h : isWs c = true) : c ∈ endChars := by
  simp only [isWs, Bool.or_eq_true, decide_eq_true_eq] at h
  rcases h with (((rfl | rfl) | rfl) | rfl) | rfl <;> decide

theorem blank_delim {w r : Text} (h : Blank w) (hr : w ≠ [] ∨ Delim r) : Delim (w ++ r) := by
  cases h with
  | nil => rcases hr with hr | hr; exacts [absurd rfl hr, hr]
  | space hc => exact .inr ⟨_, _, ws_end hc, rfl⟩
  | comment => exact .inr ⟨';', _, by decide, rfl⟩

/-! ### Collections -/

theorem body_delim {ps : List Piece} {w : Text} (h : Apart ps w) (hg : ∀ p ∈ ps, p.gap ≠ []) {c : Char} (hc : c ∈ endChars) (rest : Text) :
    Delim (body ps w ++ c :: rest) := by
  cases ps with
  | nil => exact blank_delim h.2.2 (.inr (.inr ⟨c, rest, hc, rfl⟩))
  | cons p ps =>
    rw [body, List.append_assoc]
    exact blank_delim (h.1 p (by simp)) (.inl (hg p (by simp)))

theorem apart_tail {p : Piece} {ps : List Piece} {w : Text} (h : Apart (p :: ps) w) : Apart ps w :=
  ⟨fun q hq => h.1 q (by simp [hq]), fun q hq => h.2.1 q (List.mem_of_mem_tail hq), h.2.2⟩

theorem body_length (ps : List Piece) (w : Text) : ∀ p ∈ ps, p.text.length ≤ (body ps w).length := by
  induction ps with
  | nil => simp
  | cons q ps ih =>
    intro p hp
    simp only [body, List.length_append]
    rcases List.mem_cons.1 hp with rfl | hp
    · omega
    · have := ih p hp; omega

theorem Written.starts {v : Edn} {s : Text} (h : Written v s) : Starts s := by
  cases h with
  | simple hr => exact print_starts hr
  | vector => exact ⟨_, _, rfl, by decide⟩
  | list => exact ⟨_, _, rfl, by decide⟩
  | set => exact ⟨_, _, rfl, by decide⟩
  | map => exact ⟨_, _, rfl, by decide⟩

/-- What reading one value does. -/
def ReadsAs (v : Edn) (s : Text) : Prop :=
  ∀ n rest, Delim rest → 4 * s.length + 2 ≤ n → value n (s ++ rest) = .ok v (skip rest)

theorem skip_close {c : Char} (hc : c = ')' ∨ c = ']' ∨ c = '}') (rest : Text) : skip (c :: rest) = c :: rest := by
  refine skip_delim_ne ?_ ?_ <;> rcases hc with rfl | rfl | rfl <;> decide

theorem values_written {ps : List Piece} {w : Text} (hp : ∀ p ∈ ps, Starts p.text ∧ ReadsAs p.val p.text) (ha : Apart ps w)
    {c : Char} (hc : c = ')' ∨ c = ']' ∨ c = '}') (n : Nat) (rest : Text) (hn : 4 * (body ps w).length + 4 ≤ n) :
    values n (skip (body ps w ++ c :: rest)) = .ok (ps.map (·.val)) (c :: rest) := by
  have hce : c ∈ endChars := by rcases hc with rfl | rfl | rfl <;> decide
  induction ps generalizing n with
  | nil =>
    obtain ⟨m, rfl⟩ : ∃ m, n = m + 1 := ⟨n - 1, by omega⟩
    rw [body, skip_blank ha.2.2, skip_close hc, values, value_close (by omega) hc]
    rfl
  | cons p ps ih =>
    obtain ⟨m, rfl⟩ : ∃ m, n = m + 1 := ⟨n - 1, by omega⟩
    obtain ⟨hs, hv⟩ := hp p (by simp)
    have hpos : 0 < p.text.length := by obtain ⟨a, b, h, -⟩ := hs; rw [h]; simp
    simp only [body, List.length_append] at hn
    simp only [body, List.append_assoc]
    rw [skip_blank (ha.1 p (by simp)), hs.skip, values,
      hv m _ (body_delim (apart_tail ha) (fun q hq => ha.2.1 q hq) hce rest) (by omega)]
    simp only
    rw [ih (fun q hq => hp q (by simp [hq])) (apart_tail ha) m (by omega)]
    rfl

theorem pairs_written {m : List (Edn × Edn)} : ∀ {ps : List Piece} {w : Text}, ps.map (·.val) = flat m →
    (∀ p ∈ ps, Starts p.text ∧ ReadsAs p.val p.text) → Apart ps w →
    ∀ (n : Nat) (rest : Text), 4 * (body ps w).length + 4 ≤ n →
    pairs n (skip (body ps w ++ '}' :: rest)) = .ok (flat m) ('}' :: rest) := by
  induction m with
  | nil =>
    intro ps w hm hp ha n rest hn
    have : ps = [] := by simpa [flat] using hm
    subst this
    obtain ⟨k, rfl⟩ : ∃ k, n = k + 1 := ⟨n - 1, by omega⟩
    rw [body, skip_blank ha.2.2, skip_close (by simp), pairs, value_close (by omega) (by simp)]
    rfl
  | cons e m ih =>
    intro ps w hm hp ha n rest hn
    obtain ⟨k, v⟩ := e
    have hfl : flat ((k, v) :: m) = k :: v :: flat m := rfl
    rw [hfl] at hm ⊢
    match ps, hm, hp, ha, hn with
    | p :: q :: ps, hm, hp, ha, hn =>
      simp only [List.map_cons, List.cons.injEq] at hm
      obtain ⟨rfl, rfl, hm'⟩ := hm
      obtain ⟨j, rfl⟩ : ∃ j, n = j + 1 := ⟨n - 1, by omega⟩
      obtain ⟨hs, hv⟩ := hp p (by simp)
      obtain ⟨hs', hv'⟩ := hp q (by simp)
      have hpos : 0 < p.text.length := by obtain ⟨a, b, h, -⟩ := hs; rw [h]; simp
      have ha' := apart_tail ha
      have hd1 := body_delim ha' (fun q hq => ha.2.1 q hq) (c := '}') (by decide) rest
      have hd2 := body_delim (apart_tail ha') (fun q hq => ha'.2.1 q hq) (c := '}') (by decide) rest
      simp only [body, List.length_append] at hn
      simp only [body, List.append_assoc] at hd1 ⊢
      rw [skip_blank (ha.1 p (by simp)), hs.skip, pairs, hv j _ hd1 (by omega)]
      simp only
      rw [skip_blank (ha.1 q (by simp)), hs'.skip, hv' j _ hd2 (by omega)]
      simp only
      rw [ih hm' (fun r hr => hp r (by simp [hr])) (apart_tail ha') j rest (by omega)]

theorem keys_insert (k v : Edn) (l : List (Edn × Edn)) (hk : Held k) (hl : ∀ p ∈ l, Held p.1) :
    (mapInsert k v l).map (·.1) = setInsert k (l.map (·.1)) := by
  induction l with
  | nil => rfl
  | cons p l ih =>
    obtain ⟨a, b⟩ := p
    have ih := ih fun q hq => hl q (by simp [hq])
    have ha : Held a := hl (a, b) (by simp)
    simp only [mapInsert, List.map_cons, setInsert]
    cases hc : cmp k a with
    | lt => rfl
    | gt => simp [ih]
    | eq => simp

theorem mapOf_increasing_keys {m : List (Edn × Edn)} (hm : ∀ p ∈ m, Held p.1) :
    (mapOf m).map (·.1) = setOf (m.map (·.1)) ∧ ∀ p ∈ mapOf m, Held p.1 := by
  have gen : ∀ (m a : List (Edn × Edn)), (∀ p ∈ m, Held p.1) → (∀ p ∈ a, Held p.1) →
      (m.foldl (fun m p => mapInsert p.1 p.2 m) a).map (·.1) = (m.map (·.1)).foldl (fun s x => setInsert x s) (a.map (·.1)) ∧
      ∀ p ∈ m.foldl (fun m p => mapInsert p.1 p.2 m) a, Held p.1 := by
    intro m
    induction m with
    | nil => intro a _ ha; exact ⟨rfl, ha⟩
    | cons p m ih =>
      intro a hm ha
      have hp := hm p (by simp)
      obtain ⟨h1, h2⟩ := ih (mapInsert p.1 p.2 a) (fun q hq => hm q (by simp [hq])) (mapInsert_held hp ha)
      refine ⟨?_, h2⟩
      rw [List.foldl_cons, h1, keys_insert _ _ _ hp ha]
      rfl
  exact gen m [] hm (by simp)

theorem pairs_ext {l l' : List (Edn × Edn)} (hk : l.map (·.1) = l'.map (·.1)) (hn : (l.map (·.1)).Nodup)
    (h : ∀ p ∈ l, p ∈ l') : l = l' := by
  induction l generalizing l' with
  | nil => cases l' with
    | nil => rfl
    | cons => simp at hk
  | cons p l ih =>
    cases l' with
    | nil => simp at hk
    | cons p' l' =>
      simp only [List.map_cons, List.cons.injEq] at hk
      simp only [List.map_cons, List.nodup_cons] at hn
      have hp : p = p' := by
        rcases List.mem_cons.1 (h p (by simp)) with h' | h'
        · exact h'
        · exact absurd (hk.2 ▸ List.mem_map_of_mem h') hn.1
      subst hp
      congr 1
      refine ih hk.2 hn.2 fun q hq => ?_
      rcases List.mem_cons.1 (h q (by simp [hq])) with h' | h'
      · exact absurd (h' ▸ List.mem_map_of_mem hq) hn.1
      · exact h'

theorem mapGet_mem {k v : Edn} {l : List (Edn × Edn)} (hk : Held k) (hl : ∀ p ∈ l, Held p.1) (h : mapGet k l = some v) :
    (k, v) ∈ l := by
  induction l with
  | nil => simp [mapGet] at h
  | cons p l ih =>
    obtain ⟨a, b⟩ := p
    rw [mapGet] at h
    split at h
    · rename_i hc
      have := C06_order.eq _ _ hk (hl (a, b) (by simp)) hc
      simp at h
      simp [this, h]
    · exact List.mem_cons_of_mem _ (ih (fun q hq => hl q (by simp [hq])) h)

theorem increasing_nodup {l : List Edn} (hl : ∀ y ∈ l, Held y) (h : Increasing l) : l.Nodup := by
  unfold Increasing at h
  induction l with
  | nil => exact List.nodup_nil
  | cons x l ih =>
    rw [List.pairwise_cons] at h
    refine List.nodup_cons.2 ⟨fun hx => ?_, ih (fun y hy => hl y (by simp [hy])) h.2⟩
    have h1 := h.1 x hx
    have h2 := C06_order.swap x x (hl x (by simp)) (hl x (by simp))
    rw [h1] at h2
    cases h2

theorem mapOf_eq {l m : List (Edn × Edn)} (hm : ∀ p ∈ m, Held p.1) (hi : Increasing (l.map (·.1)))
    (h : ∀ k v, (k, v) ∈ l ↔ lastFor k m v) : mapOf m = l := by
  obtain ⟨h1, h2⟩ := mapOf_increasing_keys hm
  have hmk : ∀ y ∈ m.map (·.1), Held y := by
    intro y hy; obtain ⟨p, hp, rfl⟩ := List.mem_map.1 hy; exact hm p hp
  obtain ⟨h3, h4⟩ := C06_set hmk
  have hl : ∀ p ∈ l, Held p.1 := by
    rintro ⟨k, v⟩ hp
    obtain ⟨a, b, e, -⟩ := (h k v).1 hp
    exact hm (k, v) (by rw [e]; simp)
  have hlk : ∀ y ∈ l.map (·.1), Held y := by
    intro y hy; obtain ⟨p, hp, rfl⟩ := List.mem_map.1 hy; exact hl p hp
  have hmem : ∀ p ∈ l, p ∈ mapOf m := by
    rintro ⟨k, v⟩ hp
    exact mapGet_mem (hl _ hp) h2 (((C06_map hm (hl _ hp)).1 v).2 ((h k v).1 hp))
  have hkeys : l.map (·.1) = (mapOf m).map (·.1) := by
    rw [h1]
    refine increasing_ext hlk (fun y hy => hmk y ((h3 y).1 hy)) hi h4 fun z => ?_
    rw [h3 z]
    constructor
    · intro hz
      obtain ⟨⟨k, v⟩, hp, rfl⟩ := List.mem_map.1 hz
      obtain ⟨a, b, e, -⟩ := (h k v).1 hp
      exact List.mem_map.2 ⟨(k, v), by rw [e]; simp, rfl⟩
    · intro hz
      have hh := hmk z hz
      cases hg : mapGet z (mapOf m) with
      | none =>
        obtain ⟨p, hp, rfl⟩ := List.mem_map.1 hz
        exact absurd rfl ((C06_map hm hh).2.1 hg p hp)
      | some v => exact List.mem_map.2 ⟨(z, v), (h z v).2 (((C06_map hm hh).1 v).1 hg), rfl⟩
  exact (pairs_ext hkeys (increasing_nodup hlk hi) hmem).symm

theorem Written.held {v : Edn} {s : Text} (h : Written v s) : Held v := by
  induction h with
  | simple hr => exact hr.held
  | vector _ _ ih => exact .vector _ fun x hx => by obtain ⟨p, hp, rfl⟩ := List.mem_map.1 hx; exact ih p hp
  | list _ _ ih => exact .list _ fun x hx => by obtain ⟨p, hp, rfl⟩ := List.mem_map.1 hx; exact ih p hp
  | set _ _ _ hz ih => exact .set _ fun x hx => by obtain ⟨p, hp, rfl⟩ := List.mem_map.1 ((hz x).1 hx); exact ih p hp
  | @map ps w l m _ _ hm _ hk ih =>
    refine .map _ fun x hx => ?_
    obtain ⟨⟨k, v⟩, hp, hx⟩ := List.mem_flatMap.1 hx
    obtain ⟨a, b, e, -⟩ := (hk k v).1 hp
    have : x ∈ ps.map (·.val) := by
      rw [hm, e]
      exact List.mem_flatMap.2 ⟨(k, v), by simp, hx⟩
    obtain ⟨p, hp, rfl⟩ := List.mem_map.1 this
    exact ih p hp

theorem Written.reads {v : Edn} {s : Text} (h : Written v s) : ReadsAs v s := by
  induction h with
  | simple hr => exact value_print hr
  | @vector ps w hw ha ih =>
    intro n rest hd hn
    refine value_coll (by omega) (Written.vector hw ha).starts (atom_fail (by simp) _) ?_
    simp only [List.length_cons, List.length_append, List.length_nil] at hn
    obtain ⟨m, rfl⟩ : ∃ m, n = m + 2 := ⟨n - 2, by omega⟩
    have := values_written (fun p hp => ⟨(hw p hp).starts, ih p hp⟩) ha (c := ']') (by simp) m rest (by omega)
    show collection (m + 1) _ = _
    simp only [List.cons_append, List.append_assoc, List.nil_append, collection, this, close]
    rw [skip_delim_ne (by decide) (by decide)]
    simp [lit]
  | @list ps w hw ha ih =>
    intro n rest hd hn
    refine value_coll (by omega) (Written.list hw ha).starts (atom_fail (by simp) _) ?_
    simp only [List.length_cons, List.length_append, List.length_nil] at hn
    obtain ⟨m, rfl⟩ : ∃ m, n = m + 2 := ⟨n - 2, by omega⟩
    have := values_written (fun p hp => ⟨(hw p hp).starts, ih p hp⟩) ha (c := ')') (by simp) m rest (by omega)
    show collection (m + 1) _ = _
    simp only [List.cons_append, List.append_assoc, List.nil_append, collection, this, close]
    rw [skip_delim_ne (by decide) (by decide)]
    simp [lit]
  | @set ps w l hw ha hi hz ih =>
    intro n rest hd hn
    refine value_coll (by omega) (Written.set hw ha hi hz).starts (atom_fail_set _) ?_
    simp only [List.length_cons, List.length_append, List.length_nil] at hn
    obtain ⟨m, rfl⟩ : ∃ m, n = m + 2 := ⟨n - 2, by omega⟩
    have hps : ∀ y ∈ ps.map (·.val), Held y := by
      intro y hy; obtain ⟨p, hp, rfl⟩ := List.mem_map.1 hy; exact (hw p hp).held
    have hset : Edn.setOf (ps.map (·.val)) = l := by
      obtain ⟨h1, h2⟩ := C06_set hps
      exact increasing_ext (fun y hy => hps y ((h1 y).1 hy)) (fun y hy => hps y ((hz y).1 hy)) h2 hi fun z => by rw [h1, hz]
    have := values_written (fun p hp => ⟨(hw p hp).starts, ih p hp⟩) ha (c := '}') (by simp) m rest (by omega)
    show collection (m + 1) _ = _
    simp only [List.cons_append, List.append_assoc, List.nil_append, collection, this, close]
    rw [skip_delim_ne (by decide) (by decide)]
    simp [lit, hset]
  | @map ps w l m hw ha hm hi hk ih =>
    intro n rest hd hn
    refine value_coll (by omega) (Written.map hw ha hm hi hk).starts (atom_fail (by simp) _) ?_
    simp only [List.length_cons, List.length_append, List.length_nil] at hn
    obtain ⟨j, rfl⟩ : ∃ m, n = m + 2 := ⟨n - 2, by omega⟩
    have hheld : ∀ p ∈ m, Held p.1 := by
      intro p hp
      have : p.1 ∈ ps.map (·.val) := by rw [hm]; exact List.mem_flatMap.2 ⟨p, hp, by simp⟩
      obtain ⟨q, hq, e⟩ := List.mem_map.1 this
      rw [← e]; exact (hw q hq).held
    have := pairs_written hm (fun p hp => ⟨(hw p hp).starts, ih p hp⟩) ha j rest (by omega)
    show collection (j + 1) _ = _
    simp only [List.cons_append, List.append_assoc, List.nil_append, collection, this, close]
    rw [skip_delim_ne (by decide) (by decide)]
    simp [lit, pairUp_flat, mapOf_eq hheld hi hk]

theorem skipF_open {s : Text} (hs : ∀ c ∈ s, c ≠ '\r' ∧ c ≠ '\n') : skipF true s = [] := by
  induction s with
  | nil => rfl
  | cons c s ih => simp [skipF, hs c (by simp), ih fun d hd => hs d (by simp [hd])]

theorem final_skip {b : Text} (h : Final b) : skip b = [] ∧ Delim b := by
  obtain ⟨w, s, hw, rfl, hs⟩ := h
  rw [skip_blank hw]
  rcases hs with rfl | ⟨t, rfl, ht⟩
  · exact ⟨rfl, blank_delim hw (.inr (.inl rfl))⟩
  · refine ⟨?_, blank_delim hw (.inr (.inr ⟨';', t, by decide, rfl⟩))⟩
    have hw : isWs ';' = false := by decide
    simp [skip, skipF, hw, skipF_open ht]

/-- C85: a text that writes a value, with any blanks around and between its parts, is read as this value: spaces, line ends,
tabs, commas and comments make no difference, nor do the order and repetition of members of sets and keys of maps. -/
theorem C85_reads {v : Edn} {s a b : Text} (h : Written v s) (ha : Blank a) (hb : Final b) :
    parse (a ++ (s ++ b)) = .ok v [] := by
  obtain ⟨hskip, hd⟩ := final_skip hb
  have hv := h.reads (4 * (a ++ (s ++ b)).length + 4) b hd (by simp only [List.length_append]; omega)
  have : value (4 * (a ++ (s ++ b)).length + 4) (a ++ (s ++ b)) = value (4 * (a ++ (s ++ b)).length + 4) (s ++ b) := by
    simp only [value]
    rw [skip_blank ha]
  rw [parse, this, hv, hskip]

theorem Final.nil : Final [] := ⟨[], [], .nil, rfl, .inl rfl⟩

/-- C85: a written text and nothing else. -/
theorem C85_reads_alone {v : Edn} {s : Text} (h : Written v s) : parse s = .ok v [] := by
  have := C85_reads h .nil .nil
  simpa using this

/-- C85: a text is the text of at most one value. -/
theorem C85_unambiguous {v v' : Edn} {s : Text} (h : Written v s) (h' : Written v' s) : v = v' := by
  have h1 := C85_reads_alone h
  rw [C85_reads_alone h'] at h1
  simpa using h1.symm

/-- C85: a text with commas, line ends, comments and a key given twice. -/
theorem C85_example : Written (.vector [.set [.integer 2, .integer 1], .map (flat [(.integer 3, .nil)])])
      "[;one\n#{1,2 1}\t\t{3 true,3 nil} ]".toList ∧ Blank "  ; a\r,".toList ∧ Final " ; end".toList := by
  have hi : ∀ n : Int, -(2 ^ 63) ≤ n → n < 2 ^ 63 → Written (.integer n) (intText n) := fun n h1 h2 => by
    have := Written.simple (.integer n h1 h2) (by intro l; simp)
    rwa [print] at this
  have h1 := hi 1 (by decide) (by decide)
  have h2 := hi 2 (by decide) (by decide)
  have h3 := hi 3 (by decide) (by decide)
  have hn : Written .nil ['n', 'i', 'l'] := by
    have := Written.simple .nil (by intro l; simp)
    rwa [print] at this
  have ht : Written (.boolean true) ['t', 'r', 'u', 'e'] := by
    have := Written.simple (.boolean true) (by intro l; simp)
    rwa [print] at this
  have comma : Blank [','] := .space (by decide) .nil
  have sp : Blank [' '] := .space (by decide) .nil
  have hs : Written (.set [.integer 2, .integer 1]) ("#{1,2 1}".toList) :=
    .set (ps := [⟨[], .integer 1, intText 1⟩, ⟨[','], .integer 2, intText 2⟩, ⟨[' '], .integer 1, intText 1⟩]) (w := [])
      (by simp [h1, h2]) ⟨by simp [comma, sp, Blank.nil], by simp, .nil⟩ (by unfold Increasing; decide +kernel) (by intro z; simp; tauto)
  have hm : Written (.map (flat [(.integer 3, .nil)])) "{3 true,3 nil}".toList :=
    .map (ps := [⟨[], .integer 3, intText 3⟩, ⟨[' '], .boolean true, ['t', 'r', 'u', 'e']⟩, ⟨[','], .integer 3, intText 3⟩,
        ⟨[' '], .nil, ['n', 'i', 'l']⟩]) (w := []) (m := [(.integer 3, .boolean true), (.integer 3, .nil)])
      (by simp [h3, hn, ht]) ⟨by simp [comma, sp, Blank.nil], by simp, .nil⟩ rfl (by simp [Increasing]) (by
        intro k v
        simp only [List.mem_singleton, Prod.mk.injEq]
        constructor
        · rintro ⟨rfl, rfl⟩
          exact ⟨[(.integer 3, .boolean true)], [], rfl, by simp⟩
        · rintro ⟨p, s, e, hs⟩
          match p, e with
          | [], e =>
            simp at e
            obtain ⟨⟨rfl, rfl⟩, rfl⟩ := e
            exact absurd rfl (hs (.integer 3, .nil) (by simp))
          | [_], e =>
            simp at e
            exact ⟨e.2.1.1.symm, e.2.1.2.symm⟩
          | _ :: _ :: p, e => simp at e)
  refine ⟨?_, ?_, ?_⟩
  · exact .vector (ps := [⟨";one\n".toList, _, _⟩, ⟨"\t\t".toList, _, _⟩]) (w := [' '])
      (by simp only [List.mem_cons, List.not_mem_nil, or_false]; rintro p (rfl | rfl); exacts [hs, hm])
      ⟨by
        simp only [List.mem_cons, List.not_mem_nil, or_false]
        rintro p (rfl | rfl)
        · exact .comment (s := "one".toList) (e := '\n') (w := []) (by decide) (.inr rfl) .nil
        · exact .space (by decide) (.space (by decide) .nil), by simp, sp⟩
  · exact .space (by decide) (.space (by decide) (.comment (s := " a".toList) (e := '\r') (w := [',']) (by decide) (.inl rfl) comma))
  · exact ⟨[' '], "; end".toList, sp, rfl, .inr ⟨" end".toList, rfl, by decide⟩⟩

end Mentat.EdnText
