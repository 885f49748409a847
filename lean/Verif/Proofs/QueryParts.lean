import Verif.Spec.QueryForms
/- Putting the parts of a query together. -/
namespace Mentat
namespace QParse

def Part.find? : Part → Option Find | .find f => some f | _ => none
def Part.with? : Part → Option (List Text) | .withVars f => some f | _ => none
def Part.in? : Part → Option (List Text) | .inVars f => some f | _ => none
def Part.limit? : Part → Option Limit | .limit f => some f | _ => none
def Part.clauses? : Part → Option (List Clause) | .clauses f => some f | _ => none
def Part.order? : Part → Option (List (Bool × Text)) | .order f => some f | _ => none

theorem toList_inj {a b : Option α} : a.toList = b.toList ↔ a = b := by cases a <;> cases b <;> simp

theorem toList_add {a b : Option α} {x : α} : a.toList ++ [x] = b.toList ↔ a = none ∧ b = some x := by
  cases a <;> cases b <;> simp
  exact eq_comm

theorem add_iff (t t' : Slots) (p : Part) : t.add p = some t' ↔
    t.find.toList ++ p.find?.toList = t'.find.toList ∧ t.withVars.toList ++ p.with?.toList = t'.withVars.toList ∧
    t.inVars.toList ++ p.in?.toList = t'.inVars.toList ∧ t.limit.toList ++ p.limit?.toList = t'.limit.toList ∧
    t.clauses.toList ++ p.clauses?.toList = t'.clauses.toList ∧ t.order.toList ++ p.order?.toList = t'.order.toList := by
  obtain ⟨t1, t2, t3, t4, t5, t6⟩ := t
  obtain ⟨u1, u2, u3, u4, u5, u6⟩ := t'
  cases p <;>
    simp only [Slots.add, Part.find?, Part.with?, Part.in?, Part.limit?, Part.clauses?, Part.order?, Option.toList_none,
      Option.toList_some, List.append_nil, toList_inj, toList_add]
  · cases t1 <;> simp [eq_comm]
  · cases t2 <;> simp [eq_comm]
  · cases t3 <;> simp [eq_comm]
  · cases t4 <;> simp [eq_comm]
  · cases t5 <;> simp [eq_comm]
  · cases t6 <;> simp [eq_comm]

theorem split_slot {l m : List α} {a b : Option α} (h : a.toList ++ l ++ m = b.toList) :
    ∃ c : Option α, a.toList ++ l = c.toList := by
  have hl : (a.toList ++ l).length ≤ 1 := by
    have := congrArg List.length h
    simp only [List.length_append] at this ⊢
    have hb : b.toList.length ≤ 1 := by cases b <;> simp
    omega
  match hh : a.toList ++ l, hl with
  | [], _ => exact ⟨none, rfl⟩
  | [x], _ => exact ⟨some x, rfl⟩
  | _ :: _ :: _, h => simp at h

theorem filterMap_cons_toList (f : Part → Option α) (p : Part) (ps : List Part) :
    (p :: ps).filterMap f = (f p).toList ++ ps.filterMap f := by
  rw [List.filterMap_cons]; cases f p <;> rfl

theorem addAll_iff (ps : List Part) (t t' : Slots) : t.addAll ps = some t' ↔
    t.find.toList ++ ps.filterMap Part.find? = t'.find.toList ∧ t.withVars.toList ++ ps.filterMap Part.with? = t'.withVars.toList ∧
    t.inVars.toList ++ ps.filterMap Part.in? = t'.inVars.toList ∧ t.limit.toList ++ ps.filterMap Part.limit? = t'.limit.toList ∧
    t.clauses.toList ++ ps.filterMap Part.clauses? = t'.clauses.toList ∧
    t.order.toList ++ ps.filterMap Part.order? = t'.order.toList := by
  induction ps generalizing t with
  | nil =>
    obtain ⟨t1, t2, t3, t4, t5, t6⟩ := t
    obtain ⟨u1, u2, u3, u4, u5, u6⟩ := t'
    simp [Slots.addAll, toList_inj]
  | cons p ps ih =>
    simp only [Slots.addAll, filterMap_cons_toList, ← List.append_assoc]
    constructor
    · intro h
      obtain ⟨u, hu, h⟩ := Option.bind_eq_some_iff.mp h
      obtain ⟨a1, a2, a3, a4, a5, a6⟩ := (add_iff t u p).mp hu
      rw [a1, a2, a3, a4, a5, a6]
      exact (ih u).mp h
    · rintro ⟨b1, b2, b3, b4, b5, b6⟩
      obtain ⟨u1, a1⟩ := split_slot b1
      obtain ⟨u2, a2⟩ := split_slot b2
      obtain ⟨u3, a3⟩ := split_slot b3
      obtain ⟨u4, a4⟩ := split_slot b4
      obtain ⟨u5, a5⟩ := split_slot b5
      obtain ⟨u6, a6⟩ := split_slot b6
      rw [a1] at b1; rw [a2] at b2; rw [a3] at b3; rw [a4] at b4; rw [a5] at b5; rw [a6] at b6
      have hu := (add_iff t ⟨u1, u2, u3, u4, u5, u6⟩ p).mpr ⟨a1, a2, a3, a4, a5, a6⟩
      rw [hu]
      exact (ih _).mpr ⟨b1, b2, b3, b4, b5, b6⟩

theorem fromParts_iff (ps : List Part) (q : Query) : fromParts ps = some q ↔
    ps.filterMap Part.find? = [q.find] ∧ ps.filterMap Part.clauses? = [q.clauses] ∧
    (∃ w : Option (List Text), ps.filterMap Part.with? = w.toList ∧ q.withVars = w.getD []) ∧
    (∃ w : Option (List Text), ps.filterMap Part.in? = w.toList ∧ q.inVars = w.getD []) ∧
    (∃ w : Option Limit, ps.filterMap Part.limit? = w.toList ∧ q.limit = w.getD .none) ∧
    ps.filterMap Part.order? = q.order.toList := by
  obtain ⟨q1, q2, q3, q4, q5, q6⟩ := q
  unfold fromParts
  constructor
  · intro h
    obtain ⟨t, ht, h⟩ := Option.bind_eq_some_iff.mp h
    obtain ⟨f, hf, h⟩ := Option.bind_eq_some_iff.mp h
    obtain ⟨c, hc, h⟩ := Option.bind_eq_some_iff.mp h
    obtain ⟨a1, a2, a3, a4, a5, a6⟩ := (addAll_iff ps {} t).mp ht
    simp only [Option.some.injEq, Query.mk.injEq, Option.toList_none, List.nil_append, hf, hc, Option.toList_some] at *
    obtain ⟨rfl, rfl, rfl, rfl, rfl, rfl⟩ := h
    exact ⟨a1, a5, ⟨_, a2, rfl⟩, ⟨_, a3, rfl⟩, ⟨_, a4, rfl⟩, a6⟩
  · rintro ⟨a1, a2, ⟨w, a3, b3⟩, ⟨i, a4, b4⟩, ⟨l, a5, b5⟩, a6⟩
    simp only at *
    subst b3 b4 b5
    have := (addAll_iff ps {} ⟨some q1, w, i, l, some _, _⟩).mpr ⟨a1, a3, a4, a5, a2, a6⟩
    rw [this]
    rfl

/-! ### The parts and the query of `Assembled` -/

theorem one_of_iff {l : List α} {a : α} (hp : l.Pairwise fun _ _ => False) (h : ∀ x, x ∈ l ↔ x = a) : l = [a] := by
  match l, hp with
  | [], _ => exact absurd ((h a).mpr rfl) (by simp)
  | [x], _ => have := (h x).mp (by simp); rw [this]
  | x :: y :: _, hp => exact absurd (List.rel_of_pairwise_cons hp (by simp : y ∈ y :: _)) id

theorem pairwise_slot {ps : List Part} (h : ps.Pairwise fun p p' => p.ctorIdx ≠ p'.ctorIdx) {f : Part → Option α}
    (hf : ∀ p p' x y, f p = some x → f p' = some y → p.ctorIdx = p'.ctorIdx) :
    (ps.filterMap f).Pairwise fun _ _ => False := by
  rw [List.pairwise_filterMap]
  exact h.imp fun {p p'} hne x hx y hy => hne (hf p p' x y hx hy)

theorem mem_find {ps : List Part} {x} : x ∈ ps.filterMap Part.find? ↔ .find x ∈ ps := by
  rw [List.mem_filterMap]
  exact ⟨fun ⟨p, hp, h⟩ => by cases p <;> simp_all [Part.find?], fun h => ⟨_, h, rfl⟩⟩
theorem mem_with {ps : List Part} {x} : x ∈ ps.filterMap Part.with? ↔ .withVars x ∈ ps := by
  rw [List.mem_filterMap]
  exact ⟨fun ⟨p, hp, h⟩ => by cases p <;> simp_all [Part.with?], fun h => ⟨_, h, rfl⟩⟩
theorem mem_in {ps : List Part} {x} : x ∈ ps.filterMap Part.in? ↔ .inVars x ∈ ps := by
  rw [List.mem_filterMap]
  exact ⟨fun ⟨p, hp, h⟩ => by cases p <;> simp_all [Part.in?], fun h => ⟨_, h, rfl⟩⟩
theorem mem_limit {ps : List Part} {x} : x ∈ ps.filterMap Part.limit? ↔ .limit x ∈ ps := by
  rw [List.mem_filterMap]
  exact ⟨fun ⟨p, hp, h⟩ => by cases p <;> simp_all [Part.limit?], fun h => ⟨_, h, rfl⟩⟩
theorem mem_clauses {ps : List Part} {x} : x ∈ ps.filterMap Part.clauses? ↔ .clauses x ∈ ps := by
  rw [List.mem_filterMap]
  exact ⟨fun ⟨p, hp, h⟩ => by cases p <;> simp_all [Part.clauses?], fun h => ⟨_, h, rfl⟩⟩
theorem mem_order {ps : List Part} {x} : x ∈ ps.filterMap Part.order? ↔ .order x ∈ ps := by
  rw [List.mem_filterMap]
  exact ⟨fun ⟨p, hp, h⟩ => by cases p <;> simp_all [Part.order?], fun h => ⟨_, h, rfl⟩⟩

theorem find_idx (p p' : Part) (x y) (h : Part.find? p = some x) (h' : Part.find? p' = some y) : p.ctorIdx = p'.ctorIdx := by
  cases p <;> simp only [Part.find?, reduceCtorEq] at h <;> cases p' <;> simp only [Part.find?, reduceCtorEq] at h' <;> rfl
theorem with_idx (p p' : Part) (x y) (h : Part.with? p = some x) (h' : Part.with? p' = some y) : p.ctorIdx = p'.ctorIdx := by
  cases p <;> simp only [Part.with?, reduceCtorEq] at h <;> cases p' <;> simp only [Part.with?, reduceCtorEq] at h' <;> rfl
theorem in_idx (p p' : Part) (x y) (h : Part.in? p = some x) (h' : Part.in? p' = some y) : p.ctorIdx = p'.ctorIdx := by
  cases p <;> simp only [Part.in?, reduceCtorEq] at h <;> cases p' <;> simp only [Part.in?, reduceCtorEq] at h' <;> rfl
theorem limit_idx (p p' : Part) (x y) (h : Part.limit? p = some x) (h' : Part.limit? p' = some y) : p.ctorIdx = p'.ctorIdx := by
  cases p <;> simp only [Part.limit?, reduceCtorEq] at h <;> cases p' <;> simp only [Part.limit?, reduceCtorEq] at h' <;> rfl
theorem clauses_idx (p p' : Part) (x y) (h : Part.clauses? p = some x) (h' : Part.clauses? p' = some y) : p.ctorIdx = p'.ctorIdx := by
  cases p <;> simp only [Part.clauses?, reduceCtorEq] at h <;> cases p' <;> simp only [Part.clauses?, reduceCtorEq] at h' <;> rfl
theorem order_idx (p p' : Part) (x y) (h : Part.order? p = some x) (h' : Part.order? p' = some y) : p.ctorIdx = p'.ctorIdx := by
  cases p <;> simp only [Part.order?, reduceCtorEq] at h <;> cases p' <;> simp only [Part.order?, reduceCtorEq] at h' <;> rfl

theorem slot_of {l : List α} {a d : α} (hp : l.Pairwise fun _ _ => False)
    (h : (∀ x, x ∉ l) ∧ a = d ∨ ∀ x, x ∈ l ↔ x = a) : ∃ w : Option α, l = w.toList ∧ a = w.getD d := by
  rcases h with ⟨h, rfl⟩ | h
  · exact ⟨none, List.eq_nil_iff_forall_not_mem.mpr h, rfl⟩
  · exact ⟨some a, one_of_iff hp h, rfl⟩

theorem of_slot {l : List α} {a d : α} (h : ∃ w : Option α, l = w.toList ∧ a = w.getD d) :
    (∀ x, x ∉ l) ∧ a = d ∨ ∀ x, x ∈ l ↔ x = a := by
  obtain ⟨w, rfl, rfl⟩ := h
  cases w with
  | none => exact Or.inl ⟨by simp, rfl⟩
  | some x => exact Or.inr (by simp)

theorem once_of {ps : List Part} (h1 : (ps.filterMap Part.find?).length ≤ 1) (h2 : (ps.filterMap Part.with?).length ≤ 1)
    (h3 : (ps.filterMap Part.in?).length ≤ 1) (h4 : (ps.filterMap Part.limit?).length ≤ 1)
    (h5 : (ps.filterMap Part.clauses?).length ≤ 1) (h6 : (ps.filterMap Part.order?).length ≤ 1) :
    ps.Pairwise fun p p' => p.ctorIdx ≠ p'.ctorIdx := by
  induction ps with
  | nil => exact .nil
  | cons p ps ih =>
    simp only [filterMap_cons_toList, List.length_append] at h1 h2 h3 h4 h5 h6
    refine .cons ?_ (ih (by omega) (by omega) (by omega) (by omega) (by omega) (by omega))
    intro p' hp' he
    have pos : ∀ {α} (f : Part → Option α) x, f p' = some x → 0 < (ps.filterMap f).length := by
      intro α f x hx
      exact List.length_pos_of_mem (List.mem_filterMap.mpr ⟨p', hp', hx⟩)
    cases p <;> cases p' <;> simp [Part.ctorIdx] at he
    · have := pos Part.find? _ rfl; simp [Part.find?] at h1; omega
    · have := pos Part.with? _ rfl; simp [Part.with?] at h2; omega
    · have := pos Part.in? _ rfl; simp [Part.in?] at h3; omega
    · have := pos Part.limit? _ rfl; simp [Part.limit?] at h4; omega
    · have := pos Part.clauses? _ rfl; simp [Part.clauses?] at h5; omega
    · have := pos Part.order? _ rfl; simp [Part.order?] at h6; omega

theorem fromParts_assembled (ps : List Part) (q : Query) : fromParts ps = some q ↔ Assembled ps q := by
  rw [fromParts_iff]
  constructor
  · rintro ⟨a1, a2, a3, a4, a5, a6⟩
    have len : ∀ {α} {l : List α} {w : Option α}, l = w.toList → l.length ≤ 1 := by
      rintro α l w rfl; cases w <;> simp
    refine ⟨fun f => ?_, fun c => ?_, ?_, ?_, ?_, fun l => ?_, ?_⟩
    · rw [← mem_find, a1]; simp
    · rw [← mem_clauses, a2]; simp
    · simpa only [mem_with] using of_slot a3
    · simpa only [mem_in] using of_slot a4
    · simpa only [mem_limit] using of_slot a5
    · rw [← mem_order, a6]; simp
    · obtain ⟨w, a3, -⟩ := a3
      obtain ⟨i, a4, -⟩ := a4
      obtain ⟨m, a5, -⟩ := a5
      exact once_of (by simp [a1]) (len a3) (len a4) (len a5) (by simp [a2]) (len a6)
  · intro h
    have hp : ∀ {α} {f : Part → Option α}, (∀ p p' x y, f p = some x → f p' = some y → p.ctorIdx = p'.ctorIdx) →
        (ps.filterMap f).Pairwise fun _ _ => False := fun hf => pairwise_slot h.once hf
    have p1 := hp (f := Part.find?) find_idx
    have p2 := hp (f := Part.with?) with_idx
    have p3 := hp (f := Part.in?) in_idx
    have p4 := hp (f := Part.limit?) limit_idx
    have p5 := hp (f := Part.clauses?) clauses_idx
    have p6 := hp (f := Part.order?) order_idx
    refine ⟨one_of_iff p1 fun x => mem_find.trans (h.find x), one_of_iff p5 fun x => mem_clauses.trans (h.clauses x),
      slot_of p2 (by simpa only [mem_with] using h.withVars), slot_of p3 (by simpa only [mem_in] using h.inVars),
      slot_of p4 (by simpa only [mem_limit] using h.limit), ?_⟩
    have ho : ∀ x, x ∈ ps.filterMap Part.order? ↔ q.order = some x := fun x => mem_order.trans (h.order x)
    cases hq : q.order with
    | none => exact List.eq_nil_iff_forall_not_mem.mpr fun x hx => by have := (ho x).mp hx; simp [hq] at this
    | some a => exact one_of_iff p6 fun x => by rw [ho x, hq]; simp [eq_comm]

end QParse
end Mentat
