import Verif.Proofs.Cli
/- Reading lines one after another (C91). -/
namespace Mentat
namespace Cli
open Parser

theorem command_append_query {s a x : Text} (h : command s = .ok (.query a)) : command (s ++ x) = .ok (.query (a ++ x)) := by
  obtain ⟨w0, body, hw0, rfl, hm⟩ := command_iff.mp h
  cases hm with
  | @query n w _ hn hw ha =>
    refine command_iff.mpr ⟨w0, n.toList ++ w ++ (a ++ x), hw0, by simp [List.append_assoc], .query hn hw ?_⟩
    obtain ⟨t, rfl | rfl⟩ := ha
    · exact ⟨t ++ x, .inl rfl⟩
    · exact ⟨t ++ x, .inr rfl⟩

theorem command_append_prepared {s a x : Text} (h : command s = .ok (.queryPrepared a)) : command (s ++ x) = .ok (.queryPrepared (a ++ x)) := by
  obtain ⟨w0, body, hw0, rfl, hm⟩ := command_iff.mp h
  cases hm with
  | @queryPrepared w _ hw ha =>
    refine command_iff.mpr ⟨w0, "query_prepared".toList ++ w ++ (a ++ x), hw0, by simp [List.append_assoc], .queryPrepared hw ?_⟩
    obtain ⟨t, rfl | rfl⟩ := ha
    · exact ⟨t ++ x, .inl rfl⟩
    · exact ⟨t ++ x, .inr rfl⟩

theorem command_append_transact {s a x : Text} (h : command s = .ok (.transact a)) : command (s ++ x) = .ok (.transact (a ++ x)) := by
  obtain ⟨w0, body, hw0, rfl, hm⟩ := command_iff.mp h
  cases hm with
  | @transact n w _ hn hw ha =>
    refine command_iff.mpr ⟨w0, n.toList ++ w ++ (a ++ x), hw0, by simp [List.append_assoc], .transact hn hw ?_⟩
    obtain ⟨t, rfl | rfl⟩ := ha
    · exact ⟨t ++ x, .inl rfl⟩
    · exact ⟨t ++ x, .inr rfl⟩

theorem joined_one (l : Text) : joined [l] = l := by simp [joined, List.intercalate]

theorem joined_cons (l : Text) {ls : List Text} (h : ls ≠ []) : joined (l :: ls) = l ++ '\n' :: joined ls := by
  cases ls with
  | nil => exact absurd rfl h
  | cons m ls => simp [joined, List.intercalate, List.intersperse]

theorem joined_append {ls : List Text} (l : Text) (h : ls ≠ []) : joined (ls ++ [l]) = joined ls ++ '\n' :: l := by
  induction ls with
  | nil => exact absurd rfl h
  | cons m ls ih =>
    cases ls with
    | nil => simp [joined_one, joined_cons]
    | cons n ls =>
      rw [List.cons_append, joined_cons m (ls := n :: ls ++ [l]) (by simp), ih (by simp), joined_cons m (ls := n :: ls) (by simp)]
      simp [List.append_assoc]

theorem joined_ne {l : Text} {ls : List Text} (h : l ≠ []) : joined (l :: ls) ≠ [] := by
  cases ls with
  | nil => rwa [joined_one]
  | cons m ls => rw [joined_cons _ (by simp)]; simp

/-- What the reader remembers after the lines. -/
def Remembers (r : Reader) (ls : List Text) : Prop :=
  (ls = [] ∧ r = {}) ∨ (Pending ls ∧ r.buffer = joined ls ∧ ∃ c, r.inProcess = some c ∧ command (joined ls) = .ok c ∧ c.isComplete = false)

theorem Pending.ne {ls : List Text} (h : Pending ls) : ls ≠ [] := by
  obtain ⟨⟨l, r, rfl, -⟩, -⟩ := h; simp

theorem Pending.joined_ne {ls : List Text} (h : Pending ls) : joined ls ≠ [] := by
  obtain ⟨⟨l, r, rfl, hl⟩, -⟩ := h; exact Cli.joined_ne hl

theorem Remembers.waiting {r : Reader} {ls : List Text} (h : Remembers r ls) : Waiting ls := by
  rcases h with ⟨h, -⟩ | ⟨h, -⟩
  · exact .inl h
  · exact .inr h

/-- One more line. -/
theorem take_line {r : Reader} {ls : List Text} (l : Text) (h : Remembers r ls) (hne : ls = [] → l ≠ []) :
    r.take l = match command (joined (ls ++ [l])) with
      | .ok c => if c.isComplete then ({}, .command c) else (⟨joined (ls ++ [l]), some c⟩, .more)
      | .error e => ({}, .refused e) := by
  unfold Reader.take
  rcases h with ⟨rfl, rfl⟩ | ⟨hp, hb, c, hi, hc, hf⟩
  · simp [hne rfl, joined_one]; rfl
  · have hb' : r.buffer ≠ [] := hb ▸ hp.joined_ne
    have e : (if r.buffer = [] then [] else r.buffer ++ ['\n']) ++ l = joined (ls ++ [l]) := by
      rw [if_neg hb', hb, joined_append _ hp.ne]; simp
    have hne2 : joined (ls ++ [l]) ≠ [] := by rw [joined_append _ hp.ne]; simp
    simp only [e, hne2, if_false]
    rw [hi]
    cases c with
    | query a => rw [joined_append _ hp.ne, command_append_query hc]
    | queryPrepared a => rw [joined_append _ hp.ne, command_append_prepared hc]
    | transact a => rw [joined_append _ hp.ne, command_append_transact hc]
    | _ => rfl

theorem pending_snoc {r : Reader} {ls : List Text} {l : Text} {c : Command} (h : Remembers r ls) (hne : ls = [] → l ≠ [])
    (hc : command (joined (ls ++ [l])) = .ok c) (hf : c.isComplete = false) : Pending (ls ++ [l]) := by
  constructor
  · rcases h with ⟨rfl, -⟩ | ⟨hp, -⟩
    · exact ⟨l, [], rfl, hne rfl⟩
    · obtain ⟨⟨m, t, rfl, hm⟩, -⟩ := hp
      exact ⟨m, t ++ [l], rfl, hm⟩
  · intro p hp hpre
    rcases List.prefix_concat_iff.mp hpre with rfl | hpre
    · exact ⟨c, hc, hf⟩
    · rcases h with ⟨rfl, -⟩ | ⟨hpend, -⟩
      · exact absurd (List.prefix_nil.mp hpre) hp
      · exact hpend.2 p hp hpre

theorem remembers_snoc {r : Reader} {ls : List Text} {l : Text} {c : Command} (h : Remembers r ls) (hne : ls = [] → l ≠ [])
    (hc : command (joined (ls ++ [l])) = .ok c) (hf : c.isComplete = false) : Remembers ⟨joined (ls ++ [l]), some c⟩ (ls ++ [l]) :=
  .inr ⟨pending_snoc h hne hc hf, rfl, c, rfl, hc, hf⟩

theorem run_session : ∀ (as : List UserAction) {r : Reader} {ls : List Text}, Remembers r ls → Session (ls.map .text ++ as) (r.run as)
  | [], r, ls, h => by simpa [Reader.run] using Session.stop h.waiting
  | .quit :: rest, r, ls, h => by simpa [Reader.run, Reader.readInput] using Session.quit h.waiting
  | .interrupt :: rest, r, ls, h => by
    rcases h with ⟨rfl, rfl⟩ | ⟨hp, hb, c, hi, hc, hf⟩
    · simpa [Reader.run, Reader.readInput] using Session.leave
    · have := Session.interrupted hp (run_session rest (r := {}) (ls := []) (.inl ⟨rfl, rfl⟩))
      simpa [Reader.run, Reader.readInput, hi, Reader.take] using this
  | .text l :: rest, r, ls, h => by
    by_cases hne : ls = [] → l ≠ []
    · have ht := take_line l h hne
      cases hc : command (joined (ls ++ [l])) with
      | error e =>
        simp only [hc] at ht
        have := Session.refused h.waiting hne hc (run_session rest (r := {}) (ls := []) (.inl ⟨rfl, rfl⟩))
        simpa [Reader.run, Reader.readInput, ht] using this
      | ok c =>
        simp only [hc] at ht
        by_cases hf : c.isComplete = true
        · rw [if_pos hf] at ht
          by_cases hx : c = .exit
          · subst hx
            simpa [Reader.run, Reader.readInput, ht] using Session.exit h.waiting hc
          · have := Session.entered h.waiting hne hc hf hx (run_session rest (r := {}) (ls := []) (.inl ⟨rfl, rfl⟩))
            simpa [Reader.run, Reader.readInput, ht, hx] using this
        · rw [if_neg hf] at ht
          have := run_session rest (remembers_snoc h hne hc (by simpa using hf))
          simpa [Reader.run, Reader.readInput, ht] using this
    · have hls : ls = [] := Classical.byContradiction fun h => hne fun h' => absurd h' h
      have hl : l = [] := Classical.byContradiction fun h => hne fun _ => h
      subst hls hl
      obtain ⟨-, rfl⟩ | ⟨hp, -⟩ := h
      · have := Session.blank (run_session rest (r := {}) (ls := []) (.inl ⟨rfl, rfl⟩))
        simpa [Reader.run, Reader.readInput, Reader.take] using this
      · exact absurd rfl hp.ne

/-- Lines that leave a command incomplete are remembered. -/
theorem run_waiting {ls : List Text} (h : Waiting ls) (as : List UserAction) :
    ∃ r, Remembers r ls ∧ Reader.run {} (ls.map .text ++ as) = r.run as := by
  rcases h with rfl | h
  · exact ⟨{}, .inl ⟨rfl, rfl⟩, rfl⟩
  have key : ∀ (n : Nat) (ls : List Text), ls.length = n → Pending ls → ∀ as, ∃ r, Remembers r ls ∧ Reader.run {} (ls.map .text ++ as) = r.run as := by
    intro n
    induction n with
    | zero => intro ls hn h; exact absurd (List.length_eq_zero_iff.mp hn) h.ne
    | succ n ih =>
      intro ls hn h as
      obtain ⟨p, l, rfl⟩ : ∃ p l, ls = p ++ [l] := ⟨ls.dropLast, ls.getLast h.ne, (List.dropLast_concat_getLast h.ne).symm⟩
      obtain ⟨⟨m, t, he, hm⟩, hall⟩ := h
      have hr : ∃ r, Remembers r p ∧ ∀ as, Reader.run {} (p.map .text ++ as) = r.run as := by
        by_cases hp : p = []
        · subst hp; exact ⟨{}, .inl ⟨rfl, rfl⟩, fun _ => rfl⟩
        · have hpend : Pending p := by
            refine ⟨?_, fun q hq hpre => hall q hq (hpre.trans (List.prefix_append _ _))⟩
            cases p with
            | nil => exact absurd rfl hp
            | cons x p => injection he with e1 e2; subst e1; exact ⟨x, p, rfl, hm⟩
          obtain ⟨c, hc, hf⟩ := hall p hp (List.prefix_append _ _)
          refine ⟨⟨joined p, some c⟩, .inr ⟨hpend, rfl, c, rfl, hc, hf⟩, fun as => ?_⟩
          obtain ⟨r, hr, e⟩ := ih p (by simpa using hn) hpend as
          rcases hr with ⟨h, -⟩ | ⟨-, hb, c', hi, hc', -⟩
          · exact absurd h hp
          · rw [hc] at hc'; cases hc'
            rw [e]
            congr 1
            cases r; simp_all
      obtain ⟨r, hr, e⟩ := hr
      have hne : p = [] → l ≠ [] := by
        rintro rfl; cases he; exact hm
      obtain ⟨c, hc, hf⟩ := hall (p ++ [l]) (by simp) (List.prefix_refl _)
      refine ⟨_, remembers_snoc hr hne hc hf, ?_⟩
      have ht := take_line l hr hne
      simp only [hc, hf, Bool.false_eq_true, if_false] at ht
      rw [List.map_append, List.append_assoc, e]
      simp [Reader.run, Reader.readInput, ht]
  exact key _ ls rfl h as

theorem session_run {as : List UserAction} {os : List Outcome} (h : Session as os) : Reader.run {} as = os := by
  induction h with
  | @stop ls hw =>
    obtain ⟨r, hr, e⟩ := run_waiting hw []
    rw [List.append_nil] at e
    rw [e]; rfl
  | @quit ls rest hw =>
    obtain ⟨r, hr, e⟩ := run_waiting hw (.quit :: rest)
    rw [e]; rfl
  | leave => rfl
  | @interrupted ls rest os hp _ ih =>
    obtain ⟨r, hr, e⟩ := run_waiting (.inr hp) (.interrupt :: rest)
    rw [e]
    rcases hr with ⟨rfl, -⟩ | ⟨-, hb, c, hi, hc, hf⟩
    · exact absurd rfl hp.ne
    · simpa [Reader.run, Reader.readInput, hi, Reader.take] using ih
  | @blank rest os _ ih => simpa [Reader.run, Reader.readInput, Reader.take] using ih
  | @entered ls l c rest os hw hne hc hf hx _ ih =>
    obtain ⟨r, hr, e⟩ := run_waiting hw (.text l :: rest)
    rw [e]
    have ht := take_line l hr hne
    simp only [hc, hf, if_true] at ht
    simp [Reader.run, Reader.readInput, ht, hx, ih]
  | @exit ls l rest hw hc =>
    obtain ⟨r, hr, e⟩ := run_waiting hw (.text l :: rest)
    rw [e]
    have hne : ls = [] → l ≠ [] := by
      rintro rfl rfl
      rw [List.nil_append, joined_one] at hc
      obtain ⟨w, b, -, e, -⟩ := command_iff.mp hc
      cases w <;> cases e
    have ht := take_line l hr hne
    simp only [hc, Command.isComplete, if_true] at ht
    simp [Reader.run, Reader.readInput, ht]
  | @refused ls l e' rest os hw hne hc _ ih =>
    obtain ⟨r, hr, e⟩ := run_waiting hw (.text l :: rest)
    rw [e]
    have ht := take_line l hr hne
    simp only [hc] at ht
    simp [Reader.run, Reader.readInput, ht, ih]

end Cli
end Mentat
