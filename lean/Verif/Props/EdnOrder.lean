import Verif.Model.Edn
import Verif.Props.Values
import Mathlib.Tactic.ByContra
import Mathlib.Data.List.Induction
/- C06: the order on EDN values. -/
namespace Mentat

/-- `f` is a total order on the values in `S`, with `eq` exactly for equal values. -/
structure OrderOn (f : α → α → Ordering) (S : α → Prop) : Prop where
  refl : ∀ a, S a → f a a = .eq
  eq : ∀ a b, S a → S b → f a b = .eq → a = b
  swap : ∀ a b, S a → S b → f b a = (f a b).swap
  trans : ∀ a b c, S a → S b → S c → f a b = .lt → f b c = .lt → f a c = .lt

theorem intCmp_order : OrderOn intCmp (fun _ => True) where
  refl a _ := by simp [intCmp]
  eq a b _ _ h := by
    unfold intCmp at h; split at h
    · simp at h
    · split at h
      · assumption
      · simp at h
  swap a b _ _ := by
    unfold intCmp
    by_cases h1 : a < b
    · have h2 : ¬ b < a := by omega
      have h3 : ¬ b = a := by omega
      simp [h1, h2, h3]
    · by_cases h2 : a = b
      · subst h2; simp
      · have h3 : b < a := by omega
        simp [h1, h2, h3]
  trans a b c _ _ _ h1 h2 := by
    have e : ∀ x y, intCmp x y = .lt → x < y := by
      intro x y h; unfold intCmp at h; split at h
      · assumption
      · split at h <;> simp at h
    have := e _ _ h1; have := e _ _ h2
    have h3 : a < c := by omega
    simp [intCmp, h3]

theorem OrderOn.of_inj {g : β → β → Ordering} {T : β → Prop} (h : OrderOn g T) {S : α → Prop} (k : α → β)
    (hT : ∀ a, S a → T (k a)) (hk : ∀ a b, S a → S b → k a = k b → a = b) :
    OrderOn (fun a b => g (k a) (k b)) S where
  refl a ha := h.refl _ (hT a ha)
  eq a b ha hb e := hk a b ha hb (h.eq _ _ (hT a ha) (hT b hb) e)
  swap a b ha hb := h.swap _ _ (hT a ha) (hT b hb)
  trans a b c ha hb hc := h.trans _ _ _ (hT a ha) (hT b hb) (hT c hc)

theorem OrderOn.pair {f : α → α → Ordering} {g : β → β → Ordering} {S T}
    (hf : OrderOn f S) (hg : OrderOn g T) : OrderOn (pairCmp f g) (fun p => S p.1 ∧ T p.2) where
  refl a ha := by simp [pairCmp, hf.refl _ ha.1, hg.refl _ ha.2]
  eq a b ha hb h := by
    unfold pairCmp at h
    cases hc : f a.1 b.1 with
    | eq =>
      rw [hc] at h
      exact Prod.ext (hf.eq _ _ ha.1 hb.1 hc) (hg.eq _ _ ha.2 hb.2 h)
    | lt => rw [hc] at h; simp at h
    | gt => rw [hc] at h; simp at h
  swap a b ha hb := by
    unfold pairCmp
    rw [hf.swap _ _ ha.1 hb.1]
    cases hc : f a.1 b.1 <;> simp [Ordering.swap]
    rw [hg.swap _ _ ha.2 hb.2]; rfl
  trans a b c ha hb hc h1 h2 := by
    unfold pairCmp at *
    cases e1 : f a.1 b.1 with
    | gt => rw [e1] at h1; simp at h1
    | eq =>
      rw [e1] at h1
      have := hf.eq _ _ ha.1 hb.1 e1
      rw [this]
      cases e2 : f b.1 c.1 with
      | gt => rw [e2] at h2; simp at h2
      | lt => rfl
      | eq => rw [e2] at h2; exact hg.trans _ _ _ ha.2 hb.2 hc.2 h1 h2
    | lt =>
      cases e2 : f b.1 c.1 with
      | gt => rw [e2] at h2; simp at h2
      | lt => rw [hf.trans _ _ _ ha.1 hb.1 hc.1 e1 e2]
      | eq => rw [← hf.eq _ _ hb.1 hc.1 e2, e1]

theorem lexCmp_eq_iff_list {f : α → α → Ordering} {S} (hf : OrderOn f S) :
    OrderOn (lexCmp f) (fun l => ∀ x ∈ l, S x) where
  refl a ha := by
    induction a with
    | nil => rfl
    | cons x r ih =>
      simp only [lexCmp, hf.refl _ (ha x (by simp))]
      exact ih fun y hy => ha y (by simp [hy])
  eq a := by
    induction a with
    | nil => intro b _ _ h; cases b with
      | nil => rfl
      | cons => simp [lexCmp] at h
    | cons x r ih =>
      intro b ha hb h
      cases b with
      | nil => simp [lexCmp] at h
      | cons y s =>
        unfold lexCmp at h
        cases hc : f x y with
        | eq =>
          rw [hc] at h
          rw [hf.eq _ _ (ha x (by simp)) (hb y (by simp)) hc,
            ih s (fun z hz => ha z (by simp [hz])) (fun z hz => hb z (by simp [hz])) h]
        | lt => rw [hc] at h; simp at h
        | gt => rw [hc] at h; simp at h
  swap a := by
    induction a with
    | nil => intro b _ _; cases b <;> rfl
    | cons x r ih =>
      intro b ha hb
      cases b with
      | nil => rfl
      | cons y s =>
        unfold lexCmp
        rw [hf.swap _ _ (ha x (by simp)) (hb y (by simp))]
        cases hc : f x y <;> simp [Ordering.swap]
        rw [ih s (fun z hz => ha z (by simp [hz])) (fun z hz => hb z (by simp [hz]))]
        cases lexCmp f r s <;> rfl
  trans a := by
    induction a with
    | nil =>
      intro b c _ _ _ h1 h2
      cases c with
      | nil => cases b <;> simp [lexCmp] at h1 h2
      | cons => rfl
    | cons x r ih =>
      intro b c ha hb hc h1 h2
      cases b with
      | nil => simp [lexCmp] at h1
      | cons y s =>
        cases c with
        | nil => simp [lexCmp] at h2
        | cons z t =>
          have sx := ha x (by simp)
          have sy := hb y (by simp)
          have sz := hc z (by simp)
          rw [lexCmp] at h1 h2 ⊢
          cases e1 : f x y with
          | gt => rw [e1] at h1; simp at h1
          | lt =>
            cases e2 : f y z with
            | gt => rw [e2] at h2; simp at h2
            | lt => rw [hf.trans _ _ _ sx sy sz e1 e2]
            | eq => rw [← hf.eq _ _ sy sz e2, e1]
          | eq =>
            rw [hf.eq _ _ sx sy e1]
            cases e2 : f y z with
            | gt => rw [e2] at h2; simp at h2
            | lt => rfl
            | eq =>
              rw [e1] at h1; rw [e2] at h2
              exact ih s t (fun w hw => ha w (by simp [hw])) (fun w hw => hb w (by simp [hw]))
                (fun w hw => hc w (by simp [hw])) h1 h2

theorem textCmp_order : OrderOn textCmp (fun _ => True) := by
  have h1 : OrderOn (fun c d : Char => intCmp c.toNat d.toNat) (fun _ => True) :=
    intCmp_order.of_inj (fun c : Char => (c.toNat : Int)) (fun _ _ => trivial) (by
      intro a b _ _ h
      have h : a.toNat = b.toNat := by exact_mod_cast h
      exact Char.ext (UInt32.toNat_inj.mp h))
  have h2 := lexCmp_eq_iff_list h1
  exact ⟨fun a _ => h2.refl a (by simp), fun a b _ _ => h2.eq a b (by simp) (by simp),
    fun a b _ _ => h2.swap a b (by simp) (by simp), fun a b c _ _ _ => h2.trans a b c (by simp) (by simp) (by simp)⟩

theorem parts_of_built {k : NName} (hb : k.Built) :
    (k.boundary = 0 ∧ k.parts = ([], k.components)) ∨
    (k.parts.1 ≠ [] ∧ k.boundary = k.parts.1.length ∧ k.components = k.parts.1 ++ '/' :: k.parts.2) := by
  rcases hb with ⟨n, h⟩ | ⟨ns, n, h⟩
  · unfold NName.plain at h; split at h
    · simp at h
    · cases h; left; simp [NName.parts]
  · unfold NName.namespaced at h; split at h
    · simp at h
    · split at h
      · simp at h
      · rename_i h1 h2
        cases h; right
        have hp : 0 < ns.length := List.length_pos_iff.mpr h2
        have e := (parts_namespaced (ns := ns) (n := n) h2).2
        unfold NName.name at e
        rw [if_neg (by simp; exact h2)] at e
        unfold NName.parts
        rw [if_pos hp]
        simp only at e ⊢
        rw [e]; simp [h2]

theorem nname_parts_inj {a b : NName} (ha : a.Built) (hb : b.Built) (h : a.parts = b.parts) : a = b := by
  rcases parts_of_built ha with ⟨a1, a2⟩ | ⟨a1, a2, a3⟩ <;> rcases parts_of_built hb with ⟨b1, b2⟩ | ⟨b1, b2, b3⟩
  · rw [a2, b2] at h; simp at h
    cases a; cases b; simp_all
  · rw [a2] at h; rw [← h] at b1; simp at b1
  · rw [b2] at h; rw [h] at a1; simp at a1
  · rw [← h] at b2 b3
    have e1 := a2.trans b2.symm
    have e2 := a3.trans b3.symm
    cases a; cases b; simp only at e1 e2; rw [e1, e2]

theorem nname_order : OrderOn NName.cmp NName.Built := by
  have h := (textCmp_order.pair textCmp_order).of_inj (S := NName.Built) NName.parts (fun _ _ => ⟨trivial, trivial⟩)
    (fun a b ha hb => nname_parts_inj ha hb)
  exact h

/-- The two comparisons of keywords and symbols, `PartialOrd` and `Ord`, agree. -/
theorem C06_partial_cmp {a b : NName} (ha : a.Built) (hb : b.Built) : a.partialCmp b = a.cmp b := by
  unfold NName.partialCmp NName.cmp
  rcases parts_of_built ha with ⟨a1, a2⟩ | ⟨a1, a2, a3⟩ <;> rcases parts_of_built hb with ⟨b1, b2⟩ | ⟨b1, b2, b3⟩
  · simp [a1, b1, a2, b2, pairCmp, lexCmp, textCmp]
  · have hb0 : b.boundary ≠ 0 := by rw [b2]; simpa using b1
    rw [if_pos a1, if_neg hb0, a2]
    unfold pairCmp textCmp
    cases hp : b.parts.1 with
    | nil => exact absurd hp b1
    | cons => simp [lexCmp]
  · have ha0 : a.boundary ≠ 0 := by rw [a2]; simpa using a1
    rw [if_neg ha0, if_pos b1, b2]
    unfold pairCmp textCmp
    cases hp : a.parts.1 with
    | nil => exact absurd hp a1
    | cons => simp [lexCmp]
  · have ha0 : a.boundary ≠ 0 := by rw [a2]; simpa using a1
    have hb0 : b.boundary ≠ 0 := by rw [b2]; simpa using b1
    rw [if_neg ha0, if_neg hb0]

namespace Edn

theorem cmpList_eq (a b : List Edn) : cmpList a b = lexCmp cmp a b := by
  induction a generalizing b with
  | nil => cases b <;> simp [cmpList, lexCmp]
  | cons x r ih => cases b with
    | nil => simp [cmpList, lexCmp]
    | cons y s => rw [cmpList, lexCmp]; cases cmp x y <;> simp [ih]

/-- Values the code can hold: every keyword and symbol in them was made by a constructor. -/
inductive Held : Edn → Prop
  | nil : Held .nil
  | boolean b : Held (.boolean b)
  | integer n : Held (.integer n)
  | instant t : Held (.instant t)
  | bigInteger n : Held (.bigInteger n)
  | float f : Held (.float f)
  | text s : Held (.text s)
  | uuid u : Held (.uuid u)
  | plainSymbol s : Held (.plainSymbol s)
  | nsSymbol k : k.Built → Held (.nsSymbol k)
  | keyword k : k.Built → Held (.keyword k)
  | vector l : (∀ x ∈ l, Held x) → Held (.vector l)
  | list l : (∀ x ∈ l, Held x) → Held (.list l)
  | set l : (∀ x ∈ l, Held x) → Held (.set l)
  | map l : (∀ x ∈ l, Held x) → Held (.map l)

/-- The kind of a value: its variant in the order of precedence. -/
def kind : Edn → Int
  | keyword _ => 10
  | v => v.precedence

theorem cmp_of_kind_ne {a b : Edn} (h : a.kind ≠ b.kind) : cmp a b = intCmp a.kind b.kind := by
  cases a <;> cases b <;> first | exact absurd rfl h | skip
  all_goals simp only [cmp, kind, precedence]
  all_goals (simp only [intCmp]; split <;> simp)

theorem flip_order {f : α → α → Ordering} {S} (h : OrderOn f S) : OrderOn (fun a b => f b a) S where
  refl := h.refl
  eq _ _ ha hb e := (h.eq _ _ hb ha e).symm
  swap _ _ ha hb := h.swap _ _ hb ha
  trans _ _ _ ha hb hc h1 h2 := h.trans _ _ _ hc hb ha h2 h1

theorem float_key_inj {a b : FloatV} (h : a.key = b.key) : a = b := by
  cases a <;> cases b <;> simp [FloatV.key] at h ⊢; exact h

/-- Three values of one kind compare by a total order of that kind, given one for their parts. -/
theorem same_kind {n : Nat}
    (ih : OrderOn cmp (fun v => Held v ∧ sizeOf v < n)) (k : Int) :
    OrderOn cmp (fun v => v.kind = k ∧ Held v ∧ sizeOf v < n + 1) := by
  have hl := flip_order (lexCmp_eq_iff_list ih)
  have hlm : ∀ {l : List Edn} {m}, (∀ x ∈ l, Held x) → m = 1 + sizeOf l → m < n + 1 →
      ∀ x ∈ l, Held x ∧ sizeOf x < n := by
    intro l m h hm hn x hx
    have := List.sizeOf_lt_of_mem hx
    exact ⟨h x hx, by omega⟩
  have hi := flip_order intCmp_order
  have ht := flip_order textCmp_order
  have hp := flip_order (intCmp_order.pair intCmp_order)
  have hn := flip_order nname_order
  have e : ∀ {v : Edn} {m}, v.kind = m → m = k → v.kind = k := fun h1 h2 => h1.trans h2
  refine ⟨?_, ?_, ?_, ?_⟩
  · rintro a ⟨hk, ha, hs⟩
    cases ha <;> simp only [cmp, cmpList_eq]
    · exact hi.refl _ trivial
    · exact hi.refl _ trivial
    · exact hp.refl _ ⟨trivial, trivial⟩
    · exact hi.refl _ trivial
    · exact hp.refl _ ⟨trivial, trivial⟩
    · exact ht.refl _ trivial
    · exact hi.refl _ trivial
    · exact ht.refl _ trivial
    · exact hn.refl _ (by assumption)
    · exact hn.refl _ (by assumption)
    all_goals (rename_i l h; exact hl.refl _ (hlm h (by simp) hs))
  · rintro a b ⟨hka, ha, hsa⟩ ⟨hkb, hb, hsb⟩ h
    subst hka
    cases ha <;> cases hb <;> simp only [kind, precedence, Int.reduceEq] at hkb <;>
      simp only [cmp, cmpList_eq] at h
    · rfl
    · have := hi.eq _ _ trivial trivial h
      rename_i a b; cases a <;> cases b <;> simp [boolInt] at this <;> rfl
    · rw [hi.eq _ _ trivial trivial h]
    · have := hp.eq _ _ ⟨trivial, trivial⟩ ⟨trivial, trivial⟩ h
      rename_i a b; cases a; cases b; simp at this; simp [this]
    · rw [hi.eq _ _ trivial trivial h]
    · rw [float_key_inj (hp.eq _ _ ⟨trivial, trivial⟩ ⟨trivial, trivial⟩ h)]
    · rw [ht.eq _ _ trivial trivial h]
    · have := hi.eq _ _ trivial trivial h
      rename_i a b
      have : a = b := by omega
      rw [this]
    · rw [ht.eq _ _ trivial trivial h]
    · rw [hn.eq _ _ (by assumption) (by assumption) h]
    · rw [hn.eq _ _ (by assumption) (by assumption) h]
    all_goals (rename_i l h1 l' h2; rw [hl.eq _ _ (hlm h1 (by simp) hsa) (hlm h2 (by simp) hsb) h])
  · rintro a b ⟨hka, ha, hsa⟩ ⟨hkb, hb, hsb⟩
    subst hka
    cases ha <;> cases hb <;> simp only [kind, precedence, Int.reduceEq] at hkb <;>
      simp only [cmp, cmpList_eq]
    · rfl
    · exact hi.swap _ _ trivial trivial
    · exact hi.swap _ _ trivial trivial
    · exact hp.swap (_, _) (_, _) ⟨trivial, trivial⟩ ⟨trivial, trivial⟩
    · exact hi.swap _ _ trivial trivial
    · exact hp.swap _ _ ⟨trivial, trivial⟩ ⟨trivial, trivial⟩
    · exact ht.swap _ _ trivial trivial
    · exact hi.swap _ _ trivial trivial
    · exact ht.swap _ _ trivial trivial
    · exact hn.swap _ _ (by assumption) (by assumption)
    · exact hn.swap _ _ (by assumption) (by assumption)
    all_goals (rename_i l h1 l' h2; exact hl.swap _ _ (hlm h1 (by simp) hsa) (hlm h2 (by simp) hsb))
  · rintro a b c ⟨hka, ha, hsa⟩ ⟨hkb, hb, hsb⟩ ⟨hkc, hc, hsc⟩ h1 h2
    subst hka
    cases ha <;> cases hb <;> simp only [kind, precedence, Int.reduceEq] at hkb <;>
    cases hc <;> simp only [kind, precedence, Int.reduceEq] at hkc <;>
      simp only [cmp, cmpList_eq] at h1 h2 ⊢
    · simp at h1
    · exact hi.trans _ _ _ trivial trivial trivial h1 h2
    · exact hi.trans _ _ _ trivial trivial trivial h1 h2
    · exact hp.trans (_, _) (_, _) (_, _) ⟨trivial, trivial⟩ ⟨trivial, trivial⟩ ⟨trivial, trivial⟩ h1 h2
    · exact hi.trans _ _ _ trivial trivial trivial h1 h2
    · exact hp.trans _ _ _ ⟨trivial, trivial⟩ ⟨trivial, trivial⟩ ⟨trivial, trivial⟩ h1 h2
    · exact ht.trans _ _ _ trivial trivial trivial h1 h2
    · exact hi.trans _ _ _ trivial trivial trivial h1 h2
    · exact ht.trans _ _ _ trivial trivial trivial h1 h2
    · exact hn.trans _ _ _ (by assumption) (by assumption) (by assumption) h1 h2
    · exact hn.trans _ _ _ (by assumption) (by assumption) (by assumption) h1 h2
    all_goals (rename_i l q1 l' q2 l'' q3; exact hl.trans _ _ _ (hlm q1 (by simp) hsa) (hlm q2 (by simp) hsb) (hlm q3 (by simp) hsc) h1 h2)

theorem order_lt (n : Nat) : OrderOn cmp (fun v => Held v ∧ sizeOf v < n) := by
  induction n with
  | zero => exact ⟨fun _ h => by omega, fun _ _ h => by omega, fun _ _ h => by omega, fun _ _ _ h => by omega⟩
  | succ n ih =>
    refine ⟨?_, ?_, ?_, ?_⟩
    · intro a ha
      exact (same_kind ih a.kind).refl _ ⟨rfl, ha⟩
    · intro a b ha hb h
      by_cases hk : a.kind = b.kind
      · exact (same_kind ih b.kind).eq _ _ ⟨hk, ha⟩ ⟨rfl, hb⟩ h
      · rw [cmp_of_kind_ne hk] at h
        exact absurd (intCmp_order.eq _ _ trivial trivial h) hk
    · intro a b ha hb
      by_cases hk : a.kind = b.kind
      · exact (same_kind ih b.kind).swap _ _ ⟨hk, ha⟩ ⟨rfl, hb⟩
      · rw [cmp_of_kind_ne hk, cmp_of_kind_ne (Ne.symm hk)]
        exact intCmp_order.swap _ _ trivial trivial
    · intro a b c ha hb hc h1 h2
      by_cases hk : a.kind = b.kind
      · by_cases hk' : b.kind = c.kind
        · exact (same_kind ih b.kind).trans _ _ _ ⟨hk, ha⟩ ⟨rfl, hb⟩ ⟨hk'.symm, hc⟩ h1 h2
        · rw [cmp_of_kind_ne hk'] at h2
          rw [cmp_of_kind_ne (hk ▸ hk'), hk, h2]
      · rw [cmp_of_kind_ne hk] at h1
        by_cases hk' : b.kind = c.kind
        · rw [cmp_of_kind_ne (hk' ▸ hk), ← hk', h1]
        · rw [cmp_of_kind_ne hk'] at h2
          have h3 := intCmp_order.trans _ _ _ trivial trivial trivial h1 h2
          have : a.kind ≠ c.kind := by
            intro e; rw [e] at h3; simp [intCmp] at h3
          rw [cmp_of_kind_ne this, h3]

end Edn

open Edn

/-- C06: the comparison of EDN values, of any depth, is a total order whose equality is equality of
values. -/
theorem C06_order : OrderOn Edn.cmp Edn.Held := by
  refine ⟨?_, ?_, ?_, ?_⟩
  · intro a ha
    exact (order_lt (sizeOf a + 1)).refl _ ⟨ha, by omega⟩
  · intro a b ha hb
    exact (order_lt (sizeOf a + sizeOf b + 1)).eq _ _ ⟨ha, by omega⟩ ⟨hb, by omega⟩
  · intro a b ha hb
    exact (order_lt (sizeOf a + sizeOf b + 1)).swap _ _ ⟨ha, by omega⟩ ⟨hb, by omega⟩
  · intro a b c ha hb hc
    exact (order_lt (sizeOf a + sizeOf b + sizeOf c + 1)).trans _ _ _ ⟨ha, by omega⟩ ⟨hb, by omega⟩ ⟨hc, by omega⟩

/-- The keys of a list are strictly increasing. -/
def Increasing (l : List Edn) : Prop := l.Pairwise fun a b => Edn.cmp a b = .lt

theorem mem_ednSetInsert {x : Edn} {l : List Edn} (hx : Held x) (hl : ∀ y ∈ l, Held y) (z : Edn) :
    z ∈ setInsert x l ↔ z = x ∨ z ∈ l := by
  induction l with
  | nil => simp [setInsert]
  | cons y r ih =>
    have ih := ih fun w hw => hl w (by simp [hw])
    unfold setInsert
    cases hc : cmp x y with
    | lt => simp
    | eq =>
      have := C06_order.eq _ _ hx (hl y (by simp)) hc
      subst this; simp
    | gt => simp only [List.mem_cons, ih]; grind

theorem setInsert_increasing {x : Edn} {l : List Edn} (hx : Held x) (hl : ∀ y ∈ l, Held y)
    (h : Increasing l) : Increasing (setInsert x l) := by
  unfold Increasing at *
  induction l with
  | nil => simp [setInsert]
  | cons y r ih =>
    have hy := hl y (by simp)
    have hr : ∀ w ∈ r, Held w := fun w hw => hl w (by simp [hw])
    obtain ⟨h1, h2⟩ := List.pairwise_cons.mp h
    unfold setInsert
    cases hc : cmp x y with
    | lt =>
      refine List.pairwise_cons.mpr ⟨?_, h⟩
      intro z hz
      simp only [List.mem_cons] at hz
      rcases hz with rfl | hz
      · exact hc
      · exact C06_order.trans _ _ _ hx hy (hr z hz) hc (h1 z hz)
    | eq => exact h
    | gt =>
      refine List.pairwise_cons.mpr ⟨?_, ih hr h2⟩
      intro z hz
      rcases (mem_ednSetInsert hx hr z).mp hz with rfl | hz
      · have := C06_order.swap _ _ hx hy; rw [hc] at this; exact this
      · exact h1 z hz

/-- C06: a set made from a list has exactly the list's elements, in strictly increasing order. -/
theorem C06_set {l : List Edn} (hl : ∀ y ∈ l, Held y) :
    (∀ z, z ∈ setOf l ↔ z ∈ l) ∧ Increasing (setOf l) := by
  have : ∀ (l s : List Edn), (∀ y ∈ l, Held y) → (∀ y ∈ s, Held y) → Increasing s →
      (∀ z, z ∈ l.foldl (fun s x => setInsert x s) s ↔ z ∈ s ∨ z ∈ l) ∧
      Increasing (l.foldl (fun s x => setInsert x s) s) := by
    intro l
    induction l with
    | nil => intro s _ _ h; exact ⟨by simp, h⟩
    | cons x r ih =>
      intro s hl hs h
      have hx := hl x (by simp)
      have hs' : ∀ y ∈ setInsert x s, Held y := by
        intro y hy
        rcases (mem_ednSetInsert hx hs y).mp hy with rfl | hy
        · exact hx
        · exact hs y hy
      have := ih (setInsert x s) (fun y hy => hl y (by simp [hy])) hs' (setInsert_increasing hx hs h)
      refine ⟨?_, this.2⟩
      intro z
      rw [List.foldl_cons, this.1, mem_ednSetInsert hx hs]
      simp only [List.mem_cons]; grind
  have h := this l [] hl (by simp) (by simp [Increasing])
  exact ⟨fun z => by simpa [Edn.setOf] using h.1 z, h.2⟩

theorem increasing_ext {l l' : List Edn} (hl : ∀ y ∈ l, Held y) (hl' : ∀ y ∈ l', Held y)
    (h : Increasing l) (h' : Increasing l') (he : ∀ z, z ∈ l ↔ z ∈ l') : l = l' := by
  unfold Increasing at *
  induction l generalizing l' with
  | nil => cases l' with
    | nil => rfl
    | cons y r => have := (he y).mpr (by simp); simp at this
  | cons x r ih =>
    cases l' with
    | nil => have := (he x).mp (by simp); simp at this
    | cons y s =>
      obtain ⟨h1, h2⟩ := List.pairwise_cons.mp h
      obtain ⟨h1', h2'⟩ := List.pairwise_cons.mp h'
      have hx := hl x (by simp)
      have hy := hl' y (by simp)
      have irr : ∀ z, Held z → cmp z z ≠ .lt := by
        intro z hz; rw [C06_order.refl _ hz]; simp
      have hxy : x = y := by
        by_contra hne
        have m1 : x ∈ s := by have := (he x).mp (by simp); simp [hne] at this; exact this
        have m2 : y ∈ r := by have := (he y).mpr (by simp); simp [Ne.symm hne] at this; exact this
        exact irr x hx (C06_order.trans _ _ _ hx hy hx (h1 y m2) (h1' x m1))
      subst hxy
      rw [ih (fun z hz => hl z (by simp [hz])) (fun z hz => hl' z (by simp [hz])) h2 h2' ?_]
      intro z
      constructor
      · intro hz
        have := (he z).mp (by simp [hz])
        simp only [List.mem_cons] at this
        rcases this with rfl | h
        · exact absurd (h1 z hz) (irr z hx)
        · exact h
      · intro hz
        have := (he z).mpr (by simp [hz])
        simp only [List.mem_cons] at this
        rcases this with rfl | h
        · exact absurd (h1' z hz) (irr z hx)
        · exact h

/-- C06: two sets are equal exactly if they have the same elements. -/
theorem C06_set_ext {l l' : List Edn} (hl : ∀ y ∈ l, Held y) (hl' : ∀ y ∈ l', Held y) :
    setOf l = setOf l' ↔ ∀ z, z ∈ l ↔ z ∈ l' := by
  have h1 := C06_set hl
  have h2 := C06_set hl'
  constructor
  · intro h z; rw [← h1.1, h, h2.1]
  · intro h
    refine increasing_ext (fun y hy => hl y ((h1.1 y).mp hy)) (fun y hy => hl' y ((h2.1 y).mp hy)) h1.2 h2.2 ?_
    intro z; rw [h1.1, h2.1, h]

/-- The value last given for a key. -/
def lastFor (k : Edn) (l : List (Edn × Edn)) (v : Edn) : Prop :=
  ∃ p s, l = p ++ (k, v) :: s ∧ ∀ q ∈ s, q.1 ≠ k

theorem mapGet_insert {k v k' : Edn} {l : List (Edn × Edn)} (hk : Held k) (hk' : Held k')
    (hl : ∀ p ∈ l, Held p.1) :
    (k' = k → mapGet k' (mapInsert k v l) = some v) ∧ (k' ≠ k → mapGet k' (mapInsert k v l) = mapGet k' l) := by
  have cne : ∀ {a b}, Held a → Held b → (cmp a b = .eq ↔ a = b) := by
    intro a b ha hb
    refine ⟨C06_order.eq _ _ ha hb, ?_⟩
    rintro rfl; exact C06_order.refl _ ha
  induction l with
  | nil =>
    refine ⟨fun h => ?_, fun h => ?_⟩
    · simp [mapInsert, mapGet, (cne hk' hk).mpr h]
    · simp [mapInsert, mapGet, (cne hk' hk), h]
  | cons p r ih =>
    obtain ⟨a, b⟩ := p
    have ha := hl (a, b) (by simp)
    have ih := ih fun q hq => hl q (by simp [hq])
    unfold mapInsert
    cases hc : cmp k a with
    | lt =>
      refine ⟨fun h => ?_, fun h => ?_⟩
      · simp [mapGet, (cne hk' hk).mpr h]
      · conv_lhs => unfold mapGet
        rw [if_neg (by rw [cne hk' hk]; exact h)]
    | eq =>
      have := (cne hk ha).mp hc
      subst this
      refine ⟨fun h => ?_, fun h => ?_⟩
      · simp [mapGet, (cne hk' hk).mpr h]
      · simp only [mapGet]
        rw [if_neg (by rw [cne hk' hk]; exact h), if_neg (by rw [cne hk' hk]; exact h)]
    | gt =>
      refine ⟨fun h => ?_, fun h => ?_⟩
      · simp only [mapGet]
        rw [if_neg, ih.1 h]
        rw [h, hc]; simp
      · simp only [mapGet, ih.2 h]

theorem mapInsert_held {k v : Edn} {l : List (Edn × Edn)} (hk : Held k) (hl : ∀ p ∈ l, Held p.1) :
    ∀ p ∈ mapInsert k v l, Held p.1 := by
  induction l with
  | nil => simpa [mapInsert] using hk
  | cons q r ih =>
    obtain ⟨a, b⟩ := q
    have ih := ih fun q hq => hl q (by simp [hq])
    have ha := hl (a, b) (by simp)
    unfold mapInsert
    split
    · intro p hp; simp only [List.mem_cons] at hp
      rcases hp with rfl | rfl | hp
      · exact hk
      · exact ha
      · exact hl p (by simp [hp])
    · intro p hp; simp only [List.mem_cons] at hp
      rcases hp with rfl | hp
      · exact ha
      · exact hl p (by simp [hp])
    · intro p hp; simp only [List.mem_cons] at hp
      rcases hp with rfl | hp
      · exact ha
      · exact ih p hp

/-- C06: a map made from entries gives for a key the value last given for it, and nothing for a key
that was not given. -/
theorem C06_map {l : List (Edn × Edn)} (hl : ∀ p ∈ l, Held p.1) {k : Edn} (hk : Held k) :
    (∀ v, mapGet k (mapOf l) = some v ↔ lastFor k l v) ∧
    (mapGet k (mapOf l) = none ↔ ∀ p ∈ l, p.1 ≠ k) := by
  have key : ∀ (l : List (Edn × Edn)), (∀ p ∈ l, Held p.1) →
      (∀ p ∈ mapOf l, Held p.1) ∧
      ((∀ v, mapGet k (mapOf l) = some v → lastFor k l v) ∧ (mapGet k (mapOf l) = none → ∀ p ∈ l, p.1 ≠ k)) := by
    intro l
    induction l using List.reverseRecOn with
    | nil => intro _; simp [mapOf, mapGet]
    | append_singleton l q ih =>
      intro hl
      obtain ⟨i0, i1, i2⟩ := ih fun p hp => hl p (by simp [hp])
      have hq := hl q (by simp)
      have e : mapOf (l ++ [q]) = mapInsert q.1 q.2 (mapOf l) := by simp [mapOf]
      rw [e]
      refine ⟨mapInsert_held hq i0, ?_⟩
      have hg := mapGet_insert (v := q.2) hq hk i0
      by_cases hkq : k = q.1
      · rw [hg.1 hkq]
        refine ⟨fun v hv => ⟨l, [], ?_, by simp⟩, by simp⟩
        simp at hv; subst hv; subst hkq; rfl
      · rw [hg.2 hkq]
        refine ⟨fun v hv => ?_, fun hn p hp => ?_⟩
        · obtain ⟨p, s, h1, h2⟩ := i1 v hv
          refine ⟨p, s ++ [q], by rw [h1]; simp, ?_⟩
          intro x hx; simp only [List.mem_append, List.mem_singleton] at hx
          rcases hx with hx | rfl
          · exact h2 x hx
          · exact fun h => hkq h.symm
        · simp only [List.mem_append, List.mem_singleton] at hp
          rcases hp with hp | rfl
          · exact i2 hn p hp
          · exact fun h => hkq h.symm
  obtain ⟨-, h1, h2⟩ := key l hl
  have uniq : ∀ v w, lastFor k l v → lastFor k l w → v = w := by
    rintro v w ⟨p, s, e1, n1⟩ ⟨p', s', e2, n2⟩
    rw [e1] at e2
    rcases List.append_eq_append_iff.mp e2 with ⟨m, hm1, hm2⟩ | ⟨m, hm1, hm2⟩
    · cases m with
      | nil => simp at hm2; exact hm2.1
      | cons x m =>
        simp only [List.cons_append, List.cons.injEq] at hm2
        exact absurd rfl (n1 (k, w) (by rw [hm2.2]; simp))
    · cases m with
      | nil => simp at hm2; exact hm2.1.symm
      | cons x m =>
        simp only [List.cons_append, List.cons.injEq] at hm2
        exact absurd rfl (n2 (k, v) (by rw [hm2.2]; simp))
  refine ⟨fun v => ⟨h1 v, ?_⟩, ⟨h2, ?_⟩⟩
  · intro hv
    cases hg : mapGet k (mapOf l) with
    | none =>
      obtain ⟨p, s, e, -⟩ := hv
      exact absurd rfl (h2 hg (k, v) (by rw [e]; simp))
    | some w => rw [uniq w v (h1 w hg) hv]
  · intro h
    cases hg : mapGet k (mapOf l) with
    | none => rfl
    | some w =>
      obtain ⟨p, s, e, -⟩ := h1 w hg
      exact absurd rfl (h (k, w) (by rw [e]; simp))

/-- C06: the hypotheses hold of nested values of every shape, and a keyword without a namespace
comes after one with, whatever their precedence says. -/
theorem C06_example :
    Held (.vector [.keyword ⟨"a/b".toList, 1⟩, .set [.integer 2, .integer 1], .map [.nil, .list []]]) ∧
    cmp (.keyword ⟨"b".toList, 0⟩) (.keyword ⟨"a/b".toList, 1⟩) = .gt := by
  refine ⟨.vector _ ?_, ?_⟩
  · intro x hx
    simp only [List.mem_cons, List.not_mem_nil, or_false] at hx
    rcases hx with rfl | rfl | rfl
    · exact .keyword _ (Or.inr ⟨"a".toList, "b".toList, by decide⟩)
    · refine .set _ ?_
      intro x hx; simp at hx; rcases hx with rfl | rfl <;> constructor
    · refine .map _ ?_
      intro x hx; simp at hx; rcases hx with rfl | rfl
      · constructor
      · exact .list _ (by simp)
  · rw [cmp]; decide

end Mentat
