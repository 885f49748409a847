import Verif.Model.Matcher
import Verif.Spec.Matcher
import Verif.Model.EdnParse
import Verif.Proofs.KernelRfl
/- C87: matching against patterns. -/
namespace Mentat.Edn

mutual
theorem same_iff (a b : Edn) : same a b = true ↔ a = b := by
  match a, b with
  | .vector l, .vector m => have h := sameAll_iff l m; simp [same, h]
  | .list l, .list m => have h := sameAll_iff l m; simp [same, h]
  | .set l, .set m => have h := sameAll_iff l m; simp [same, h]
  | .map l, .map m => have h := sameAll_iff l m; simp [same, h]
  | .nil, b => cases b <;> simp [same]
  | .boolean _, b => cases b <;> simp [same]
  | .integer _, b => cases b <;> simp [same]
  | .instant _, b => cases b <;> simp [same]
  | .bigInteger _, b => cases b <;> simp [same]
  | .float _, b => cases b <;> simp [same]
  | .text _, b => cases b <;> simp [same]
  | .uuid _, b => cases b <;> simp [same]
  | .plainSymbol _, b => cases b <;> simp [same]
  | .nsSymbol _, b => cases b <;> simp [same]
  | .keyword _, b => cases b <;> simp [same]
  | .vector _, .nil | .vector _, .boolean _ | .vector _, .integer _ | .vector _, .instant _ | .vector _, .bigInteger _
  | .vector _, .float _ | .vector _, .text _ | .vector _, .uuid _ | .vector _, .plainSymbol _ | .vector _, .nsSymbol _
  | .vector _, .keyword _ | .vector _, .list _ | .vector _, .set _ | .vector _, .map _ => simp [same]
  | .list _, .nil | .list _, .boolean _ | .list _, .integer _ | .list _, .instant _ | .list _, .bigInteger _
  | .list _, .float _ | .list _, .text _ | .list _, .uuid _ | .list _, .plainSymbol _ | .list _, .nsSymbol _
  | .list _, .keyword _ | .list _, .vector _ | .list _, .set _ | .list _, .map _ => simp [same]
  | .set _, .nil | .set _, .boolean _ | .set _, .integer _ | .set _, .instant _ | .set _, .bigInteger _
  | .set _, .float _ | .set _, .text _ | .set _, .uuid _ | .set _, .plainSymbol _ | .set _, .nsSymbol _
  | .set _, .keyword _ | .set _, .vector _ | .set _, .list _ | .set _, .map _ => simp [same]
  | .map _, .nil | .map _, .boolean _ | .map _, .integer _ | .map _, .instant _ | .map _, .bigInteger _
  | .map _, .float _ | .map _, .text _ | .map _, .uuid _ | .map _, .plainSymbol _ | .map _, .nsSymbol _
  | .map _, .keyword _ | .map _, .vector _ | .map _, .list _ | .map _, .set _ => simp [same]
theorem sameAll_iff (l m : List Edn) : sameAll l m = true ↔ l = m := by
  match l, m with
  | [], [] => simp [sameAll]
  | a :: l, b :: m =>
    have h1 := same_iff a b
    have h2 := sameAll_iff l m
    simp [sameAll, h1, h2]
  | [], _ :: _ => simp [sameAll]
  | _ :: _, [] => simp [sameAll]
end

/-- Induction on the members of collections. -/
theorem ind {P : Edn → Prop}
    (leaf : ∀ v, (∀ l, v ≠ .vector l) → (∀ l, v ≠ .list l) → (∀ l, v ≠ .set l) → (∀ l, v ≠ .map l) → P v)
    (vector : ∀ l, (∀ x ∈ l, P x) → P (.vector l)) (list : ∀ l, (∀ x ∈ l, P x) → P (.list l))
    (set : ∀ l, (∀ x ∈ l, P x) → P (.set l)) (map : ∀ l, (∀ x ∈ l, P x) → P (.map l)) (v : Edn) : P v := by
  have key : ∀ n v, sizeOf v < n → P v := by
    intro n
    induction n with
    | zero => intro v h; omega
    | succ n ih =>
      intro v h
      cases v
      case vector l =>
        exact vector l fun x hx => ih x (by have := List.sizeOf_lt_of_mem hx; simp at h; omega)
      case list l =>
        exact list l fun x hx => ih x (by have := List.sizeOf_lt_of_mem hx; simp at h; omega)
      case set l =>
        exact set l fun x hx => ih x (by have := List.sizeOf_lt_of_mem hx; simp at h; omega)
      case map l =>
        exact map l fun x hx => ih x (by have := List.sizeOf_lt_of_mem hx; simp at h; omega)
      all_goals exact leaf _ (by simp) (by simp) (by simp) (by simp)
  exact key _ v (Nat.lt_succ_self _)

/-- What was bound stays bound. -/
def Ext (b c : Bound) : Prop := ∀ s w, b.lookup s = some w → c.lookup s = some w
/-- `σ` is what is bound. -/
def Agree (σ : Text → Edn) (b : Bound) : Prop := ∀ s w, b.lookup s = some w → σ s = w

theorem Ext.agree {b c : Bound} (h : Ext b c) {σ} (hc : Agree σ c) : Agree σ b := fun s w hw => hc s w (h s w hw)

namespace Match

def Mono (f : Match) : Prop := ∀ b, Ext b (f b).2
def Sound (f : Match) (R : (Text → Edn) → Prop) : Prop := ∀ b, (f b).1 = true → ∀ σ, Agree σ (f b).2 → R σ
def Complete (f : Match) (R : (Text → Edn) → Prop) : Prop := ∀ b σ, Agree σ b → R σ → (f b).1 = true ∧ Agree σ (f b).2
/-- Nothing gets bound. -/
def Exact (f : Match) (R : (Text → Edn) → Prop) : Prop := ∀ b σ, (f b).2 = b ∧ ((f b).1 = true ↔ R σ)

theorem Exact.complete {f R} (h : Exact f R) : Complete f R := fun b σ hb hr => by
  rw [(h b σ).1]; exact ⟨(h b σ).2.2 hr, hb⟩
theorem Exact.sound {f R} (h : Exact f R) : Sound f R := fun b hb σ _ => (h b σ).2.1 hb
theorem Exact.mono {f R} (h : Exact f R) : Mono f := fun b s w hw => by rw [(h b fun _ => .nil).1]; exact hw

theorem mono_const (r : Bool) : Mono fun b => (r, b) := fun _ _ _ h => h

theorem exact_const {r : Bool} {R} (h : ∀ σ, r = true ↔ R σ) : Exact (fun b => (r, b)) R := fun _ σ => ⟨rfl, h σ⟩

theorem mono_and {f g : Match} (hf : Mono f) (hg : Mono g) : Mono (f.and g) := by
  intro b s w h
  have := hf b s w h
  rw [Match.and]
  split
  · exact hg _ s w this
  · exact this

theorem sound_and {f g : Match} {R S} (hf : Sound f R) (hg : Sound g S) (hm : Mono g) :
    Sound (f.and g) fun σ => R σ ∧ S σ := by
  intro b h σ hσ
  rw [Match.and] at h hσ
  split at h
  · rename_i hc
    rw [if_pos hc] at hσ
    exact ⟨hf b hc σ ((hm _).agree hσ), hg _ h σ hσ⟩
  · simp at h

theorem complete_and {f g : Match} {R S} (hf : Complete f R) (hg : Complete g S) : Complete (f.and g) fun σ => R σ ∧ S σ := by
  intro b σ hb ⟨h1, h2⟩
  obtain ⟨h3, h4⟩ := hf b σ hb h1
  rw [Match.and]
  rw [if_pos h3]
  exact hg _ σ h4 h2

theorem exact_and {f g : Match} {R S} (hf : Exact f R) (hg : Exact g S) : Exact (f.and g) fun σ => R σ ∧ S σ := by
  intro b σ
  rw [Match.and]
  dsimp only
  have h1 := hf b σ
  split
  · rename_i hc
    have h2 := hg (f b).2 σ
    rw [h1.1] at h2 ⊢
    exact ⟨h2.1, by rw [h2.2]; simp [h1.2.1 hc]⟩
  · rename_i hc
    rw [h1.2] at hc
    exact ⟨h1.1, by simp [hc]⟩

theorem mono_all {f : α → Match} {l : List α} (h : ∀ x ∈ l, Mono (f x)) : Mono (Match.all f l) := by
  induction l with
  | nil => exact mono_const _
  | cons x l ih => exact mono_and (h x (by simp)) (ih fun y hy => h y (by simp [hy]))

theorem sound_all {f : α → Match} {R : α → _ → Prop} {l : List α} (h : ∀ x ∈ l, Sound (f x) (R x)) (hm : ∀ x ∈ l, Mono (f x)) :
    Sound (Match.all f l) fun σ => ∀ x ∈ l, R x σ := by
  induction l with
  | nil => intro b _ σ _; simp
  | cons x l ih =>
    have hm' : ∀ y ∈ l, Mono (f y) := fun y hy => hm y (by simp [hy])
    intro b hb σ hσ
    have := sound_and (h x (by simp)) (ih (fun y hy => h y (by simp [hy])) hm') (mono_all hm') b hb σ hσ
    simpa using this

theorem exact_all {f : α → Match} {R : α → _ → Prop} {l : List α} (h : ∀ x ∈ l, Exact (f x) (R x)) :
    Exact (Match.all f l) fun σ => ∀ x ∈ l, R x σ := by
  induction l with
  | nil => exact exact_const (by simp)
  | cons x l ih =>
    intro b σ
    have := exact_and (h x (by simp)) (ih fun y hy => h y (by simp [hy])) b σ
    rw [Match.all]
    exact ⟨this.1, this.2.trans (by simp)⟩

theorem mono_any {f : α → Match} {l : List α} (h : ∀ x ∈ l, Mono (f x)) : Mono (Match.any f l) := by
  induction l with
  | nil => exact mono_const _
  | cons x l ih =>
    intro b s w hw
    have h1 := h x (by simp) b s w hw
    rw [Match.any]
    dsimp only
    split
    · exact h1
    · exact ih (fun y hy => h y (by simp [hy])) _ s w h1

theorem sound_any {f : α → Match} {R : α → _ → Prop} {l : List α} (h : ∀ x ∈ l, Sound (f x) (R x)) :
    Sound (Match.any f l) fun σ => ∃ x ∈ l, R x σ := by
  induction l with
  | nil => intro b hb; simp [Match.any] at hb
  | cons x l ih =>
    intro b hb σ hσ
    rw [Match.any] at hb hσ
    dsimp only at hb hσ
    split at hb
    · rename_i hc
      rw [if_pos hc] at hσ
      exact ⟨x, by simp, h x (by simp) b hc σ hσ⟩
    · rename_i hc
      rw [if_neg hc] at hσ
      obtain ⟨y, hy, hr⟩ := ih (fun y hy => h y (by simp [hy])) _ hb σ hσ
      exact ⟨y, by simp [hy], hr⟩

theorem exact_any {f : α → Match} {R : α → _ → Prop} {l : List α} (h : ∀ x ∈ l, Exact (f x) (R x)) :
    Exact (Match.any f l) fun σ => ∃ x ∈ l, R x σ := by
  induction l with
  | nil => exact exact_const (by simp)
  | cons x l ih =>
    intro b σ
    have h1 := h x (by simp) b σ
    rw [Match.any]
    dsimp only
    split
    · rename_i hc
      exact ⟨h1.1, by simp [h1.2.1 hc]⟩
    · rename_i hc
      rw [h1.2] at hc
      rw [h1.1]
      have h2 := ih (fun y hy => h y (by simp [hy])) b σ
      refine ⟨h2.1, by rw [h2.2]; simp [hc]⟩

/-- What both iterations find. -/
def Both (R : α → β → Prop) (vs : List α) (ps : List β) : Prop :=
  (∀ a ∈ vs, ∃ b ∈ ps, R a b) ∧ ∀ b ∈ ps, ∃ a ∈ vs, R a b

theorem mono_both {f : α → β → Match} {vs : List α} {ps : List β} (h : ∀ a ∈ vs, ∀ b ∈ ps, Mono (f a b)) : Mono (Match.both f vs ps) :=
  mono_and (mono_all fun a ha => mono_any fun b hb => h a ha b hb) (mono_all fun b hb => mono_any fun a ha => h a ha b hb)

theorem sound_both {f : α → β → Match} {R : α → β → _ → Prop} {vs : List α} {ps : List β}
    (h : ∀ a ∈ vs, ∀ b ∈ ps, Sound (f a b) (R a b)) (hm : ∀ a ∈ vs, ∀ b ∈ ps, Mono (f a b)) :
    Sound (Match.both f vs ps) fun σ => Both (fun a b => R a b σ) vs ps :=
  sound_and (sound_all (fun a ha => sound_any fun b hb => h a ha b hb) fun a ha => mono_any fun b hb => hm a ha b hb)
    (sound_all (fun b hb => sound_any fun a ha => h a ha b hb) fun b hb => mono_any fun a ha => hm a ha b hb)
    (mono_all fun b hb => mono_any fun a ha => hm a ha b hb)

theorem exact_both {f : α → β → Match} {R : α → β → _ → Prop} {vs : List α} {ps : List β}
    (h : ∀ a ∈ vs, ∀ b ∈ ps, Exact (f a b) (R a b)) : Exact (Match.both f vs ps) fun σ => Both (fun a b => R a b σ) vs ps :=
  exact_and (exact_all fun a ha => exact_any fun b hb => h a ha b hb) (exact_all fun b hb => exact_any fun a ha => h a ha b hb)

/-- Member by member. -/
def Each (R : α → β → Prop) : List α → List β → Prop
  | [], [] => True
  | a :: l, b :: m => R a b ∧ Each R l m
  | _, _ => False

theorem each_iff {R : α → β → Prop} {l : List α} {m : List β} :
    Each R l m ↔ l.length = m.length ∧ ∀ (i : Nat) a b, l[i]? = some a → m[i]? = some b → R a b := by
  induction l generalizing m with
  | nil => cases m <;> simp [Each]
  | cons a l ih =>
    cases m with
    | nil => simp [Each]
    | cons b m =>
      rw [Each, ih]
      constructor
      · rintro ⟨h1, h2, h3⟩
        refine ⟨by simp [h2], ?_⟩
        intro i x y hx hy
        cases i with
        | zero => simp at hx hy; rw [← hx, ← hy]; exact h1
        | succ i => exact h3 i x y (by simpa using hx) (by simpa using hy)
      · rintro ⟨h1, h2⟩
        exact ⟨h2 0 a b rfl rfl, by simpa using h1, fun i x y hx hy => h2 (i + 1) x y (by simpa using hx) (by simpa using hy)⟩

theorem mono_zip {l p : List Edn} (h : ∀ x ∈ p, ∀ v, Mono (matcher x v)) : Mono (Match.zip l (p.map matcher)) := by
  induction p generalizing l with
  | nil => cases l <;> exact mono_const _
  | cons x p ih =>
    cases l with
    | nil => exact mono_const _
    | cons v l => exact mono_and (h x (by simp) v) (ih fun y hy => h y (by simp [hy]))

theorem sound_zip {R : Edn → Edn → _ → Prop} {l p : List Edn} (h : ∀ v ∈ l, ∀ x ∈ p, Sound (matcher x v) (R v x))
    (hm : ∀ x ∈ p, ∀ v, Mono (matcher x v)) : Sound (Match.zip l (p.map matcher)) fun σ => Each (fun v x => R v x σ) l p := by
  induction p generalizing l with
  | nil =>
    cases l with
    | nil => intro _ _ _ _; trivial
    | cons v l => intro b hb; simp [Match.zip] at hb
  | cons x p ih =>
    cases l with
    | nil => intro b hb; simp [Match.zip] at hb
    | cons v l =>
      have hm' : ∀ y ∈ p, ∀ v, Mono (matcher y v) := fun y hy => hm y (by simp [hy])
      exact sound_and (h v (by simp) x (by simp)) (ih (fun w hw y hy => h w (by simp [hw]) y (by simp [hy])) hm') (mono_zip hm')

theorem complete_zip {R : Edn → Edn → _ → Prop} {l p : List Edn} (h : ∀ v ∈ l, ∀ x ∈ p, Complete (matcher x v) (R v x)) :
    Complete (Match.zip l (p.map matcher)) fun σ => Each (fun v x => R v x σ) l p := by
  induction p generalizing l with
  | nil =>
    cases l with
    | nil => intro b σ hb _; exact ⟨rfl, hb⟩
    | cons v l => intro b σ hb h; exact h.elim
  | cons x p ih =>
    cases l with
    | nil => intro b σ hb h; exact h.elim
    | cons v l => exact complete_and (h v (by simp) x (by simp)) (ih fun w hw y hy => h w (by simp [hw]) y (by simp [hy]))

theorem exact_zip {R : Edn → Edn → _ → Prop} {l p : List Edn} (h : ∀ v ∈ l, ∀ x ∈ p, Exact (matcher x v) (R v x)) :
    Exact (Match.zip l (p.map matcher)) fun σ => Each (fun v x => R v x σ) l p := by
  induction p generalizing l with
  | nil => cases l <;> exact exact_const (by simp [Each])
  | cons x p ih =>
    cases l with
    | nil => exact exact_const (by simp [Each])
    | cons v l => exact exact_and (h v (by simp) x (by simp)) (ih fun w hw y hy => h w (by simp [hw]) y (by simp [hy]))

theorem exact_literal {p v : Edn} {R} (h : ∀ σ, v = p ↔ R σ) : Exact (Match.literal p v) R :=
  exact_const fun σ => (same_iff v p).trans (h σ)

theorem mono_placeholder (s : Text) (v : Edn) : Mono (Match.placeholder s v) := by
  intro b t w h
  rw [Match.placeholder]
  split
  · exact h
  · rename_i hn
    rw [List.lookup_cons]
    split
    · rename_i he
      rw [beq_iff_eq] at he
      rw [he, hn] at h
      cases h
    · exact h

theorem sound_placeholder (s : Text) (v : Edn) : Sound (Match.placeholder s v) fun σ => σ s = v := by
  intro b hb σ hσ
  rw [Match.placeholder] at hb hσ
  split at hb
  · rename_i w hw
    rw [hw] at hσ
    rw [(same_iff v w).1 hb]
    exact hσ s w hw
  · rename_i hw
    rw [hw] at hσ
    exact hσ s v (by simp)

theorem complete_placeholder (s : Text) (v : Edn) : Complete (Match.placeholder s v) fun σ => σ s = v := by
  intro b σ hb h
  rw [Match.placeholder]
  split
  · rename_i w hw
    exact ⟨(same_iff v w).2 (by rw [← h]; exact hb s w hw), hb⟩
  · refine ⟨rfl, ?_⟩
    intro t w ht
    rw [List.lookup_cons] at ht
    split at ht
    · rename_i he
      rw [beq_iff_eq] at he
      cases ht
      rw [he, h]
    · exact hb t w ht

theorem Exact.of_iff {f R S} (h : Exact f R) (hi : ∀ σ, R σ ↔ S σ) : Exact f S := fun b σ => ⟨(h b σ).1, (h b σ).2.trans (hi σ)⟩
theorem Sound.of_imp {f R S} (h : Sound f R) (hi : ∀ σ, R σ → S σ) : Sound f S := fun b hb σ hσ => hi σ (h b hb σ hσ)
theorem Complete.of_imp {f R S} (h : Complete f R) (hi : ∀ σ, S σ → R σ) : Complete f S := fun b σ hb hs => h b σ hb (hi σ hs)

end Match

open Match

theorem matchers_eq (l : List Edn) : matchers l = l.map matcher := by
  induction l with
  | nil => rw [matchers]; rfl
  | cons p l ih => rw [matchers, ih]; rfl

theorem twos_flat (l : List (Edn × Edn)) : twos (flat l) = l := by
  induction l with
  | nil => rfl
  | cons p l ih =>
    have : flat (p :: l) = p.1 :: p.2 :: flat l := rfl
    rw [this, twos, ih]

theorem twos_matchers (l : List (Edn × Edn)) : twos (matchers (flat l)) = l.map fun p => (matcher p.1, matcher p.2) := by
  rw [matchers_eq]
  induction l with
  | nil => rfl
  | cons p l ih =>
    have : flat (p :: l) = p.1 :: p.2 :: flat l := rfl
    rw [this, List.map_cons, List.map_cons, twos, ih]
    rfl

theorem flat_length (l : List (Edn × Edn)) : (flat l).length = 2 * l.length := by
  induction l with
  | nil => rfl
  | cons p l ih =>
    have : flat (p :: l) = p.1 :: p.2 :: flat l := rfl
    rw [this, List.length_cons, List.length_cons, ih, List.length_cons]; omega

theorem mem_twos {l : List α} {p : α × α} (h : p ∈ twos l) : p.1 ∈ l ∧ p.2 ∈ l := by
  match l with
  | [] => simp [twos] at h
  | [_] => simp [twos] at h
  | a :: b :: l =>
    rw [twos] at h
    rcases List.mem_cons.1 h with rfl | h
    · simp
    · have := mem_twos h; simp [this]

/-! ### What it is to match, by the form of the pattern -/

theorem matches_vector {σ vs ps} : Matches σ (.vector vs) (.vector ps) ↔ Each (Matches σ) vs ps := by
  rw [each_iff]
  constructor
  · intro h
    cases h with
    | same _ h => exact absurd rfl (h _)
    | vector h1 h2 => exact ⟨h1, h2⟩
  · rintro ⟨h1, h2⟩; exact .vector h1 h2

theorem matches_list {σ vs ps} : Matches σ (.list vs) (.list ps) ↔ Each (Matches σ) vs ps := by
  rw [each_iff]
  constructor
  · intro h
    cases h with
    | same _ _ h => exact absurd rfl (h _)
    | list h1 h2 => exact ⟨h1, h2⟩
  · rintro ⟨h1, h2⟩; exact .list h1 h2

theorem matches_set {σ vs ps} : Matches σ (.set vs) (.set ps) ↔ vs.length = ps.length ∧ Both (Matches σ) vs ps := by
  constructor
  · intro h
    cases h with
    | same _ _ _ h => exact absurd rfl (h _)
    | set r h1 h2 h3 h4 =>
      refine ⟨h1, fun a ha => ?_, fun b hb => ?_⟩
      · obtain ⟨p, hp, hr⟩ := h3 a ha; exact ⟨p, hp, h2 _ _ hr⟩
      · obtain ⟨p, hp, hr⟩ := h4 b hb; exact ⟨p, hp, h2 _ _ hr⟩
  · rintro ⟨h1, h2, h3⟩; exact .set _ h1 (fun _ _ h => h) h2 h3

theorem matches_map {σ} {vs ps : List (Edn × Edn)} : Matches σ (.map (flat vs)) (.map (flat ps)) ↔
    vs.length = ps.length ∧ Both (fun v p => Matches σ v.1 p.1 ∧ Matches σ v.2 p.2) vs ps := by
  constructor
  · intro h
    generalize e1 : flat vs = l at h
    generalize e2 : flat ps = m at h
    cases h with
    | same _ _ _ _ h => exact absurd rfl (h _)
    | @map us qs r h1 h2 h2' h3 h4 =>
      obtain rfl : vs = us := by rw [← twos_flat vs, e1, twos_flat]
      obtain rfl : ps = qs := by rw [← twos_flat ps, e2, twos_flat]
      refine ⟨h1, fun a ha => ?_, fun b hb => ?_⟩
      · obtain ⟨p, hp, hr⟩ := h3 a ha; exact ⟨p, hp, h2 _ _ hr, h2' _ _ hr⟩
      · obtain ⟨p, hp, hr⟩ := h4 b hb; exact ⟨p, hp, h2 _ _ hr, h2' _ _ hr⟩
  · rintro ⟨h1, h2, h3⟩; exact .map _ h1 (fun _ _ h => h.1) (fun _ _ h => h.2) h2 h3

/-- Two values of which one is a collection and the other not one of the same kind. -/
theorem matches_other {σ v p} (hp : ∀ s, p ≠ .plainSymbol s) (h1 : ∀ l m, ¬(v = .vector l ∧ p = .vector m))
    (h2 : ∀ l m, ¬(v = .list l ∧ p = .list m)) (h3 : ∀ l m, ¬(v = .set l ∧ p = .set m))
    (h4 : ∀ l m, ¬(v = .map l ∧ p = .map m)) : v = p ↔ Matches σ v p := by
  constructor
  · rintro rfl
    exact .same hp (fun l h => h1 l l ⟨h, h⟩) (fun l h => h2 l l ⟨h, h⟩) (fun l h => h3 l l ⟨h, h⟩) (fun l h => h4 l l ⟨h, h⟩)
  · intro h
    cases h with
    | any => exact absurd rfl (hp _)
    | placeholder => exact absurd rfl (hp _)
    | symbol => exact absurd rfl (hp _)
    | same => rfl
    | vector => exact absurd ⟨rfl, rfl⟩ (h1 _ _)
    | list => exact absurd ⟨rfl, rfl⟩ (h2 _ _)
    | set => exact absurd ⟨rfl, rfl⟩ (h3 _ _)
    | map => exact absurd ⟨rfl, rfl⟩ (h4 _ _)

theorem head_cons {s : Text} {c : Char} (h : s.head? = some c) : ∃ r, s = c :: r := by
  cases s with
  | nil => simp at h
  | cons d r => simp at h; exact ⟨r, by rw [h]⟩

theorem matches_symbol {σ v s} (h1 : s.head? ≠ some '_') (h2 : s.head? ≠ some '?') :
    v = .plainSymbol s ↔ Matches σ v (.plainSymbol s) := by
  constructor
  · rintro rfl; exact .symbol h1 h2
  · intro h
    cases h with
    | any => exact absurd rfl h1
    | placeholder => exact absurd rfl h2
    | symbol => rfl
    | same => rfl

theorem matches_placeholder {σ v s} (h : s.head? = some '?') : σ s = v ↔ Matches σ v (.plainSymbol s) := by
  obtain ⟨r, rfl⟩ := head_cons h
  constructor
  · intro h; exact .placeholder h
  · intro h
    cases h with
    | placeholder h => exact h
    | symbol _ h => exact absurd rfl h
    | same h => exact absurd rfl (h _)

theorem matches_any {σ v s} (h : s.head? = some '_') : Matches σ v (.plainSymbol s) := by
  obtain ⟨r, rfl⟩ := head_cons h
  exact .any

/-! ### The matcher -/

/-- A pattern and a value that are not collections of the same kind. -/
theorem exact_other {v p : Edn} (hp : ∀ s, p ≠ .plainSymbol s) (h1 : ∀ l m, ¬(v = .vector l ∧ p = .vector m))
    (h2 : ∀ l m, ¬(v = .list l ∧ p = .list m)) (h3 : ∀ l m, ¬(v = .set l ∧ p = .set m))
    (h4 : ∀ l m, ¬(v = .map l ∧ p = .map m)) : Exact (matcher p v) fun σ => Matches σ v p := by
  have he : matcher p v = Match.literal p v := by
    cases p
    case plainSymbol s => exact absurd rfl (hp s)
    case vector m => cases v <;> first | exact absurd ⟨rfl, rfl⟩ (h1 _ _) | rw [matcher]; simp
    case list m => cases v <;> first | exact absurd ⟨rfl, rfl⟩ (h2 _ _) | rw [matcher]; simp
    case set m => cases v <;> first | exact absurd ⟨rfl, rfl⟩ (h3 _ _) | rw [matcher]; simp
    case map m => cases v <;> first | exact absurd ⟨rfl, rfl⟩ (h4 _ _) | rw [matcher]; simp
    all_goals rw [matcher] <;> simp
  rw [he]
  exact exact_literal fun σ => matches_other hp h1 h2 h3 h4

theorem matcher_any {s : Text} (h : s.head? = some '_') (v : Edn) : matcher (.plainSymbol s) v = fun b => (true, b) := by
  rw [matcher, if_pos h]
theorem matcher_placeholder {s : Text} (h : s.head? = some '?') (v : Edn) :
    matcher (.plainSymbol s) v = Match.placeholder s v := by
  rw [matcher, if_neg (by rw [h]; decide), if_pos h]
theorem matcher_symbol {s : Text} (h : s.head? ≠ some '_') (h' : s.head? ≠ some '?') (v : Edn) :
    matcher (.plainSymbol s) v = Match.literal (.plainSymbol s) v := by
  rw [matcher, if_neg h, if_neg h']
theorem matcher_vector (p l : List Edn) : matcher (.vector p) (.vector l) = Match.zip l (p.map matcher) := by
  rw [matcher, matchers_eq]
theorem matcher_list (p l : List Edn) : matcher (.list p) (.list l) = Match.zip l (p.map matcher) := by
  rw [matcher, matchers_eq]
theorem matcher_set (p l : List Edn) : matcher (.set p) (.set l) =
    if l.length = p.length then Match.both (fun a m => m a) l (p.map matcher) else fun b => (false, b) := by
  rw [matcher, matchers_eq]
theorem matcher_map (p l : List Edn) : matcher (.map p) (.map l) =
    if l.length = p.length then Match.both (fun a m => (m.1 a.1).and (m.2 a.2)) (twos l) (twos (p.map matcher))
    else fun b => (false, b) := by
  rw [matcher, matchers_eq]

/-- Symbols. -/
theorem matcher_leaf {P : Match → ((Text → Edn) → Prop) → Prop} (hc : ∀ {f R}, Exact f R → P f R)
    (hp : ∀ s v, P (Match.placeholder s v) fun σ => σ s = v)
    (hi : ∀ {f R S}, P f R → (∀ σ, R σ ↔ S σ) → P f S) {p : Edn}
    (h1 : ∀ l, p ≠ .vector l) (h2 : ∀ l, p ≠ .list l) (h3 : ∀ l, p ≠ .set l) (h4 : ∀ l, p ≠ .map l) (v : Edn) :
    P (matcher p v) fun σ => Matches σ v p := by
  by_cases hs : ∃ s, p = .plainSymbol s
  · obtain ⟨s, rfl⟩ := hs
    by_cases a1 : s.head? = some '_'
    · rw [matcher_any a1]
      exact hc (exact_const fun σ => by simp [matches_any a1])
    · by_cases a2 : s.head? = some '?'
      · rw [matcher_placeholder a2]
        exact hi (hp s v) fun σ => matches_placeholder a2
      · rw [matcher_symbol a1 a2]
        exact hc (exact_literal fun σ => matches_symbol a1 a2)
  · exact hc (exact_other (fun s h => hs ⟨s, h⟩) (fun _ m h => h1 m h.2) (fun _ m h => h2 m h.2) (fun _ m h => h3 m h.2)
      (fun _ m h => h4 m h.2))

theorem matcher_mono (p : Edn) : ∀ v, Mono (matcher p v) := by
  induction p using ind with
  | leaf p h1 h2 h3 h4 =>
    exact fun v => matcher_leaf (P := fun f _ => Mono f) (fun h => h.mono) mono_placeholder (fun h _ => h) h1 h2 h3 h4 v
  | vector p ih =>
    intro v
    by_cases hv : ∃ l, v = .vector l
    · obtain ⟨l, rfl⟩ := hv
      rw [matcher_vector]
      exact mono_zip ih
    · exact (exact_other (by simp) (fun l _ h => hv ⟨l, h.1⟩) (by simp) (by simp) (by simp)).mono
  | list p ih =>
    intro v
    by_cases hv : ∃ l, v = .list l
    · obtain ⟨l, rfl⟩ := hv
      rw [matcher_list]
      exact mono_zip ih
    · exact (exact_other (by simp) (by simp) (fun l _ h => hv ⟨l, h.1⟩) (by simp) (by simp)).mono
  | set p ih =>
    intro v
    by_cases hv : ∃ l, v = .set l
    · obtain ⟨l, rfl⟩ := hv
      rw [matcher_set]
      split
      · refine mono_both fun a _ m hm => ?_
        obtain ⟨x, hx, rfl⟩ := List.mem_map.1 hm
        exact ih x hx a
      · exact mono_const _
    · exact (exact_other (by simp) (by simp) (by simp) (fun l _ h => hv ⟨l, h.1⟩) (by simp)).mono
  | map p ih =>
    intro v
    by_cases hv : ∃ l, v = .map l
    · obtain ⟨l, rfl⟩ := hv
      rw [matcher_map]
      split
      · refine mono_both fun a _ m hm => ?_
        obtain ⟨h1, h2⟩ := mem_twos hm
        obtain ⟨x, hx, e1⟩ := List.mem_map.1 h1
        obtain ⟨y, hy, e2⟩ := List.mem_map.1 h2
        rw [← e1, ← e2]
        exact mono_and (ih x hx _) (ih y hy _)
      · exact mono_const _
    · exact (exact_other (by simp) (by simp) (by simp) (by simp) (fun l _ h => hv ⟨l, h.1⟩)).mono

theorem Whole.members {v : Edn} (h : Whole v) :
    (∀ l, v = .vector l → ∀ x ∈ l, Whole x) ∧ (∀ l, v = .list l → ∀ x ∈ l, Whole x) ∧ (∀ l, v = .set l → ∀ x ∈ l, Whole x) ∧
      ∀ l, v = .map l → ∃ m, l = flat m ∧ ∀ x ∈ flat m, Whole x := by
  cases h with
  | other h1 h2 h3 h4 => exact ⟨fun l e => absurd e (h1 l), fun l e => absurd e (h2 l), fun l e => absurd e (h3 l), fun l e => absurd e (h4 l)⟩
  | vector h => exact ⟨by rintro l ⟨⟩; exact h, by simp, by simp, by simp⟩
  | list h => exact ⟨by simp, by rintro l ⟨⟩; exact h, by simp, by simp⟩
  | set h => exact ⟨by simp, by simp, by rintro l ⟨⟩; exact h, by simp⟩
  | map h => exact ⟨by simp, by simp, by simp, by rintro l ⟨⟩; exact ⟨_, rfl, h⟩⟩

theorem mem_flat {l : List (Edn × Edn)} {p : Edn × Edn} (h : p ∈ l) : p.1 ∈ flat l ∧ p.2 ∈ flat l :=
  ⟨List.mem_flatMap.2 ⟨p, h, by simp⟩, List.mem_flatMap.2 ⟨p, h, by simp⟩⟩

/-- The set and map cases, given what is known of the members. -/
theorem set_case {P : Match → ((Text → Edn) → Prop) → Prop} (hc : ∀ {f R}, Exact f R → P f R)
    (hi : ∀ {f R S}, P f R → (∀ σ, R σ ↔ S σ) → P f S) {p l : List Edn}
    (hb : P (Match.both (fun a m => matcher m a) l p) fun σ => Both (Matches σ) l p) :
    P (matcher (.set p) (.set l)) fun σ => Matches σ (.set l) (.set p) := by
  rw [matcher_set]
  have e : Match.both (fun a m => m a) l (p.map matcher) = Match.both (fun a m => matcher m a) l p := by
    have h1 : ∀ (f : Edn → (Edn → Match) → Match) a (q : List Edn),
        Match.any (fun b => f a b) (q.map matcher) = Match.any (fun b => f a (matcher b)) q := by
      intro f a q
      induction q with
      | nil => rfl
      | cons x q ih => funext b; rw [List.map_cons, Match.any, Match.any, ih]
    have h2 : ∀ (f : (Edn → Match) → Match) (q : List Edn), Match.all f (q.map matcher) = Match.all (fun b => f (matcher b)) q := by
      intro f q
      induction q with
      | nil => rfl
      | cons x q ih => rw [List.map_cons, Match.all, Match.all, ih]
    rw [Match.both, Match.both, h2]
    simp only [h1 (fun a m => m a)]
  split
  · rename_i hl
    rw [e]
    exact hi hb fun σ => by rw [matches_set]; simp [hl]
  · rename_i hl
    exact hc (exact_const fun σ => by rw [matches_set]; simp [hl])

theorem map_case {P : Match → ((Text → Edn) → Prop) → Prop} (hc : ∀ {f R}, Exact f R → P f R)
    (hi : ∀ {f R S}, P f R → (∀ σ, R σ ↔ S σ) → P f S) {p l : List (Edn × Edn)}
    (hb : P (Match.both (fun a m => (matcher m.1 a.1).and (matcher m.2 a.2)) l p)
      fun σ => Both (fun v p => Matches σ v.1 p.1 ∧ Matches σ v.2 p.2) l p) :
    P (matcher (.map (flat p)) (.map (flat l))) fun σ => Matches σ (.map (flat l)) (.map (flat p)) := by
  rw [matcher_map, ← matchers_eq, twos_matchers, twos_flat]
  let g := fun q : Edn × Edn => (matcher q.1, matcher q.2)
  have e : Match.both (fun a m => (m.1 a.1).and (m.2 a.2)) l (p.map g) =
      Match.both (fun a m => (matcher m.1 a.1).and (matcher m.2 a.2)) l p := by
    have h1 : ∀ (f : (Edn → Match) × (Edn → Match) → Match) (q : List (Edn × Edn)),
        Match.any f (q.map g) = Match.any (fun b => f (g b)) q := by
      intro f q
      induction q with
      | nil => rfl
      | cons x q ih => funext b; rw [List.map_cons, Match.any, Match.any, ih]
    have h2 : ∀ (f : (Edn → Match) × (Edn → Match) → Match) (q : List (Edn × Edn)),
        Match.all f (q.map g) = Match.all (fun b => f (g b)) q := by
      intro f q
      induction q with
      | nil => rfl
      | cons x q ih => rw [List.map_cons, Match.all, Match.all, ih]
    rw [Match.both, Match.both, h2]
    simp only [h1]
    rfl
  split
  · rename_i hl
    rw [e]
    exact hi hb fun σ => by rw [matches_map]; simp only [flat_length] at hl; simp; omega
  · rename_i hl
    exact hc (exact_const fun σ => by rw [matches_map]; simp only [flat_length] at hl; simp; omega)

theorem matcher_sound (p : Edn) : Whole p → ∀ v, Whole v → Sound (matcher p v) fun σ => Matches σ v p := by
  induction p using ind with
  | leaf p h1 h2 h3 h4 =>
    exact fun _ v _ => matcher_leaf (P := Sound) (fun h => h.sound) sound_placeholder (fun h hi => h.of_imp fun σ => (hi σ).1) h1 h2 h3 h4 v
  | vector p ih =>
    intro hp v hw
    by_cases hv : ∃ l, v = .vector l
    · obtain ⟨l, rfl⟩ := hv
      rw [matcher_vector]
      exact (sound_zip (fun w hw' x hx => ih x hx (hp.members.1 p rfl x hx) w (hw.members.1 l rfl w hw'))
        fun x _ => matcher_mono x).of_imp fun σ => matches_vector.2
    · exact (exact_other (by simp) (fun l _ h => hv ⟨l, h.1⟩) (by simp) (by simp) (by simp)).sound
  | list p ih =>
    intro hp v hw
    by_cases hv : ∃ l, v = .list l
    · obtain ⟨l, rfl⟩ := hv
      rw [matcher_list]
      exact (sound_zip (fun w hw' x hx => ih x hx (hp.members.2.1 p rfl x hx) w (hw.members.2.1 l rfl w hw'))
        fun x _ => matcher_mono x).of_imp fun σ => matches_list.2
    · exact (exact_other (by simp) (by simp) (fun l _ h => hv ⟨l, h.1⟩) (by simp) (by simp)).sound
  | set p ih =>
    intro hp v hw
    by_cases hv : ∃ l, v = .set l
    · obtain ⟨l, rfl⟩ := hv
      exact set_case (P := Sound) (fun h => h.sound) (fun h hi => h.of_imp fun σ => (hi σ).1)
        (sound_both (R := fun a b σ => Matches σ a b)
          (fun a ha x hx => ih x hx (hp.members.2.2.1 p rfl x hx) a (hw.members.2.2.1 l rfl a ha)) fun a _ x _ => matcher_mono x a)
    · exact (exact_other (by simp) (by simp) (by simp) (fun l _ h => hv ⟨l, h.1⟩) (by simp)).sound
  | map p ih =>
    intro hp v hw
    by_cases hv : ∃ l, v = .map l
    · obtain ⟨l, rfl⟩ := hv
      obtain ⟨m, rfl, hm⟩ := hw.members.2.2.2 l rfl
      obtain ⟨q, rfl, hq⟩ := hp.members.2.2.2 p rfl
      exact map_case (P := Sound) (fun h => h.sound) (fun h hi => h.of_imp fun σ => (hi σ).1)
        (sound_both (R := fun a b σ => Matches σ a.1 b.1 ∧ Matches σ a.2 b.2)
          (fun a ha x hx => sound_and (ih _ (mem_flat hx).1 (hq _ (mem_flat hx).1) _ (hm _ (mem_flat ha).1))
            (ih _ (mem_flat hx).2 (hq _ (mem_flat hx).2) _ (hm _ (mem_flat ha).2)) (matcher_mono _ _))
          fun a _ x _ => mono_and (matcher_mono _ _) (matcher_mono _ _))
    · exact (exact_other (by simp) (by simp) (by simp) (by simp) (fun l _ h => hv ⟨l, h.1⟩)).sound

theorem Free.members {v : Edn} (h : Free v) :
    (∀ s, v = .plainSymbol s → s.head? ≠ some '?') ∧ (∀ l, v = .vector l → ∀ x ∈ l, Free x) ∧
      (∀ l, v = .list l → ∀ x ∈ l, Free x) ∧ (∀ l, v = .set l → ∀ x ∈ l, Free x) ∧ ∀ l, v = .map l → ∀ x ∈ l, Free x := by
  cases h with
  | symbol h => exact ⟨by rintro s ⟨⟩; exact h, by simp, by simp, by simp, by simp⟩
  | other h0 h1 h2 h3 h4 =>
    exact ⟨fun s e => absurd e (h0 s), fun l e => absurd e (h1 l), fun l e => absurd e (h2 l), fun l e => absurd e (h3 l), fun l e => absurd e (h4 l)⟩
  | vector h => exact ⟨by simp, by rintro l ⟨⟩; exact h, by simp, by simp, by simp⟩
  | list h => exact ⟨by simp, by simp, by rintro l ⟨⟩; exact h, by simp, by simp⟩
  | set h => exact ⟨by simp, by simp, by simp, by rintro l ⟨⟩; exact h, by simp⟩
  | map h => exact ⟨by simp, by simp, by simp, by simp, by rintro l ⟨⟩; exact h⟩

theorem matcher_exact (p : Edn) : Whole p → Free p → ∀ v, Whole v → Exact (matcher p v) fun σ => Matches σ v p := by
  induction p using ind with
  | leaf p h1 h2 h3 h4 =>
    intro _ hf v _
    by_cases hs : ∃ s, p = .plainSymbol s
    · obtain ⟨s, rfl⟩ := hs
      by_cases a1 : s.head? = some '_'
      · rw [matcher_any a1]
        exact exact_const fun σ => by simp [matches_any a1]
      · rw [matcher_symbol a1 (hf.members.1 s rfl)]
        exact exact_literal fun σ => matches_symbol a1 (hf.members.1 s rfl)
    · exact exact_other (fun s h => hs ⟨s, h⟩) (fun _ m h => h1 m h.2) (fun _ m h => h2 m h.2) (fun _ m h => h3 m h.2)
        (fun _ m h => h4 m h.2)
  | vector p ih =>
    intro hp hf v hw
    by_cases hv : ∃ l, v = .vector l
    · obtain ⟨l, rfl⟩ := hv
      rw [matcher_vector]
      exact (exact_zip (fun w hw' x hx => ih x hx (hp.members.1 p rfl x hx) (hf.members.2.1 p rfl x hx) w
        (hw.members.1 l rfl w hw'))).of_iff fun σ => matches_vector.symm
    · exact exact_other (by simp) (fun l _ h => hv ⟨l, h.1⟩) (by simp) (by simp) (by simp)
  | list p ih =>
    intro hp hf v hw
    by_cases hv : ∃ l, v = .list l
    · obtain ⟨l, rfl⟩ := hv
      rw [matcher_list]
      exact (exact_zip (fun w hw' x hx => ih x hx (hp.members.2.1 p rfl x hx) (hf.members.2.2.1 p rfl x hx) w
        (hw.members.2.1 l rfl w hw'))).of_iff fun σ => matches_list.symm
    · exact exact_other (by simp) (by simp) (fun l _ h => hv ⟨l, h.1⟩) (by simp) (by simp)
  | set p ih =>
    intro hp hf v hw
    by_cases hv : ∃ l, v = .set l
    · obtain ⟨l, rfl⟩ := hv
      exact set_case (P := Exact) (fun h => h) (fun h hi => h.of_iff hi)
        (exact_both (R := fun a b σ => Matches σ a b) fun a ha x hx =>
          ih x hx (hp.members.2.2.1 p rfl x hx) (hf.members.2.2.2.1 p rfl x hx) a (hw.members.2.2.1 l rfl a ha))
    · exact exact_other (by simp) (by simp) (by simp) (fun l _ h => hv ⟨l, h.1⟩) (by simp)
  | map p ih =>
    intro hp hf v hw
    by_cases hv : ∃ l, v = .map l
    · obtain ⟨l, rfl⟩ := hv
      obtain ⟨m, rfl, hm⟩ := hw.members.2.2.2 l rfl
      obtain ⟨q, rfl, hq⟩ := hp.members.2.2.2 p rfl
      have hf' := hf.members.2.2.2.2 _ rfl
      exact map_case (P := Exact) (fun h => h) (fun h hi => h.of_iff hi)
        (exact_both (R := fun a b σ => Matches σ a.1 b.1 ∧ Matches σ a.2 b.2) fun a ha x hx =>
          exact_and (ih _ (mem_flat hx).1 (hq _ (mem_flat hx).1) (hf' _ (mem_flat hx).1) _ (hm _ (mem_flat ha).1))
            (ih _ (mem_flat hx).2 (hq _ (mem_flat hx).2) (hf' _ (mem_flat hx).2) _ (hm _ (mem_flat ha).2)))
    · exact exact_other (by simp) (by simp) (by simp) (by simp) (fun l _ h => hv ⟨l, h.1⟩)

theorem Ordered.members {v : Edn} (h : Ordered v) :
    (∀ l, v = .vector l → ∀ x ∈ l, Ordered x) ∧ (∀ l, v = .list l → ∀ x ∈ l, Ordered x) ∧
      (∀ l, v = .set l → Free v) ∧ ∀ l, v = .map l → Free v := by
  cases h with
  | other h1 h2 h3 h4 => exact ⟨fun l e => absurd e (h1 l), fun l e => absurd e (h2 l), fun l e => absurd e (h3 l), fun l e => absurd e (h4 l)⟩
  | vector h => exact ⟨by rintro l ⟨⟩; exact h, by simp, by simp, by simp⟩
  | list h => exact ⟨by simp, by rintro l ⟨⟩; exact h, by simp, by simp⟩
  | set h => exact ⟨by simp, by simp, fun l _ => .set h, by simp⟩
  | map h => exact ⟨by simp, by simp, by simp, fun l _ => .map h⟩

theorem matcher_complete (p : Edn) : Whole p → Ordered p → ∀ v, Whole v → Complete (matcher p v) fun σ => Matches σ v p := by
  induction p using ind with
  | leaf p h1 h2 h3 h4 =>
    exact fun _ _ v _ =>
      matcher_leaf (P := Complete) (fun h => h.complete) complete_placeholder (fun h hi => h.of_imp fun σ => (hi σ).2) h1 h2 h3 h4 v
  | vector p ih =>
    intro hp ho v hw
    by_cases hv : ∃ l, v = .vector l
    · obtain ⟨l, rfl⟩ := hv
      rw [matcher_vector]
      exact (complete_zip fun w hw' x hx => ih x hx (hp.members.1 p rfl x hx) (ho.members.1 p rfl x hx) w
        (hw.members.1 l rfl w hw')).of_imp fun σ => matches_vector.1
    · exact (exact_other (by simp) (fun l _ h => hv ⟨l, h.1⟩) (by simp) (by simp) (by simp)).complete
  | list p ih =>
    intro hp ho v hw
    by_cases hv : ∃ l, v = .list l
    · obtain ⟨l, rfl⟩ := hv
      rw [matcher_list]
      exact (complete_zip fun w hw' x hx => ih x hx (hp.members.2.1 p rfl x hx) (ho.members.2.1 p rfl x hx) w
        (hw.members.2.1 l rfl w hw')).of_imp fun σ => matches_list.1
    · exact (exact_other (by simp) (by simp) (fun l _ h => hv ⟨l, h.1⟩) (by simp) (by simp)).complete
  | set p _ => exact fun hp ho v hw => (matcher_exact _ hp (ho.members.2.2.1 p rfl) v hw).complete
  | map p _ => exact fun hp ho v hw => (matcher_exact _ hp (ho.members.2.2.2 p rfl) v hw).complete

/-- C87: a value said to match a pattern does, with one value for each placeholder. -/
theorem C87_sound {v p : Edn} (hv : Whole v) (hp : Whole p) (h : fitsPattern v p = true) : ∃ σ, Matches σ v p := by
  refine ⟨fun s => ((matcher p v []).2.lookup s).getD .nil, matcher_sound p hp v hv [] h _ ?_⟩
  intro s w hw
  simp [hw]

/-- C87: a value that matches a pattern with no placeholder in a set or map is found to.  Missing: patterns with placeholders
in sets and maps, of which `C87_complete_fails` shows that they are not. -/
theorem C87_complete_partial {v p : Edn} (hv : Whole v) (hp : Whole p) (ho : Ordered p) :
    fitsPattern v p = true ↔ ∃ σ, Matches σ v p := by
  refine ⟨C87_sound hv hp, ?_⟩
  rintro ⟨σ, h⟩
  exact (matcher_complete p hp ho v hv [] σ (by intro s w hw; simp at hw) h).1

theorem matches_self {v : Edn} (h : Whole v) : Matches .plainSymbol v v := by
  induction v using ind with
  | leaf v h1 h2 h3 h4 =>
    by_cases hs : ∃ s, v = .plainSymbol s
    · obtain ⟨s, rfl⟩ := hs
      by_cases a1 : s.head? = some '_'
      · exact matches_any a1
      · by_cases a2 : s.head? = some '?'
        · exact (matches_placeholder a2).1 rfl
        · exact (matches_symbol a1 a2).1 rfl
    · exact .same (fun s h => hs ⟨s, h⟩) h1 h2 h3 h4
  | vector l ih =>
    refine .vector rfl fun i v p h1 h2 => ?_
    rw [h1] at h2; cases h2
    have := List.mem_of_getElem? h1
    exact ih v this (h.members.1 l rfl v this)
  | list l ih =>
    refine .list rfl fun i v p h1 h2 => ?_
    rw [h1] at h2; cases h2
    have := List.mem_of_getElem? h1
    exact ih v this (h.members.2.1 l rfl v this)
  | set l ih =>
    have hm : ∀ v ∈ l, Matches .plainSymbol v v := fun v hv => ih v hv (h.members.2.2.1 l rfl v hv)
    exact matches_set.2 ⟨rfl, fun v hv => ⟨v, hv, hm v hv⟩, fun v hv => ⟨v, hv, hm v hv⟩⟩
  | map l ih =>
    obtain ⟨m, rfl, hm⟩ := h.members.2.2.2 l rfl
    have hm' : ∀ v ∈ m, Matches .plainSymbol v.1 v.1 ∧ Matches .plainSymbol v.2 v.2 := fun v hv =>
      ⟨ih _ (mem_flat hv).1 (hm _ (mem_flat hv).1), ih _ (mem_flat hv).2 (hm _ (mem_flat hv).2)⟩
    exact matches_map.2 ⟨rfl, fun v hv => ⟨v, hv, hm' v hv⟩, fun v hv => ⟨v, hv, hm' v hv⟩⟩

/-- C87: a value without placeholders in sets or maps matches itself. -/
theorem C87_self_partial {v : Edn} (hv : Whole v) (ho : Ordered v) : fitsPattern v v = true :=
  (C87_complete_partial hv hv ho).2 ⟨_, matches_self hv⟩

/-! ### What fails, and examples -/

/-- `?x` -/
def ph (c : Char) : Edn := .plainSymbol ['?', c]

/-- The pairs `#{[3 2] [2 1]}` and the chain `#{[?x ?y] [?y ?z]}`. -/
def chainValue : Edn := .set [.vector [.integer 2, .integer 1], .vector [.integer 3, .integer 2]]
def chainPattern : Edn := .set [.vector [ph 'x', ph 'y'], .vector [ph 'y', ph 'z']]
/-- `[{:a 1 :b 2} :a :b]`, and the pattern `[{?y 1 ?x 2} ?y ?x]` -/
def keysValue : Edn :=
  .vector [.map [.keyword ⟨['b'], 0⟩, .integer 2, .keyword ⟨['a'], 0⟩, .integer 1], .keyword ⟨['a'], 0⟩, .keyword ⟨['b'], 0⟩]
def keysPattern (m : List Edn) (a b : Char) : Edn := .vector [.map m, ph a, ph b]
/-- `[#{_ ?x} ?x]` -/
def anySelf : Edn := .vector [.set [.plainSymbol ['_'], ph 'x'], ph 'x']

theorem whole_leaf {v : Edn} (h1 : ∀ l, v ≠ .vector l) (h2 : ∀ l, v ≠ .list l) (h3 : ∀ l, v ≠ .set l) (h4 : ∀ l, v ≠ .map l) : Whole v :=
  .other h1 h2 h3 h4

/-- What sets and maps read as, so that the order of the members is that of the code. -/
theorem C87_read : EdnParse.parse "#{[3 2] [2 1]}".toList = .ok chainValue [] ∧
    EdnParse.parse "#{[?x ?y] [?y ?z]}".toList = .ok chainPattern [] ∧
    EdnParse.parse "[{:a 1 :b 2} :a :b]".toList = .ok keysValue [] ∧
    EdnParse.parse "[{?y 1 ?x 2} ?y ?x]".toList = .ok (keysPattern [ph 'y', .integer 1, ph 'x', .integer 2] 'y' 'x') [] ∧
    EdnParse.parse "[{?x 1 ?y 2} ?x ?y]".toList = .ok (keysPattern [ph 'y', .integer 2, ph 'x', .integer 1] 'x' 'y') [] ∧
    EdnParse.parse "[#{_ ?x} ?x]".toList = .ok anySelf [] := by
  refine ⟨?_, ?_, ?_, ?_, ?_, ?_⟩ <;> kernel_rfl

/-- C87 fails for patterns with placeholders in sets: what the first member bound is not undone. -/
theorem C87_complete_fails : (∃ σ, Matches σ chainValue chainPattern) ∧ fitsPattern chainValue chainPattern = false := by
  refine ⟨⟨fun s => if s = ['?', 'x'] then .integer 3 else if s = ['?', 'y'] then .integer 2 else .integer 1, ?_⟩, by decide +kernel⟩
  refine matches_set.2 ⟨rfl, ?_, ?_⟩
  · intro a ha
    rcases List.mem_cons.1 ha with rfl | ha
    · exact ⟨.vector [ph 'y', ph 'z'], by simp, matches_vector.2 ⟨.placeholder rfl, .placeholder rfl, trivial⟩⟩
    · obtain rfl := List.mem_singleton.1 ha
      exact ⟨.vector [ph 'x', ph 'y'], by simp, matches_vector.2 ⟨.placeholder rfl, .placeholder rfl, trivial⟩⟩
  · intro a ha
    rcases List.mem_cons.1 ha with rfl | ha
    · exact ⟨.vector [.integer 3, .integer 2], by simp, matches_vector.2 ⟨.placeholder rfl, .placeholder rfl, trivial⟩⟩
    · obtain rfl := List.mem_singleton.1 ha
      exact ⟨.vector [.integer 2, .integer 1], by simp, matches_vector.2 ⟨.placeholder rfl, .placeholder rfl, trivial⟩⟩

/-- C87 fails for the names of placeholders: swapping two names in a pattern with a map changes the answer. -/
theorem C87_names_fails :
    fitsPattern keysValue (keysPattern [ph 'y', .integer 1, ph 'x', .integer 2] 'y' 'x') = false ∧
    fitsPattern keysValue (keysPattern [ph 'y', .integer 2, ph 'x', .integer 1] 'x' 'y') = true := by
  constructor <;> decide +kernel

/-- C87 fails for a value with placeholders in sets against itself. -/
theorem C87_self_fails : fitsPattern anySelf anySelf = false := by decide +kernel

/-- `#{[1] 2 3}` matches `#{[_a] [_b] _c}`, although two patterns match `[1]` only: members are not paired off. -/
theorem C87_pairing_fails :
    fitsPattern (.set [.integer 3, .integer 2, .vector [.integer 1]])
      (.set [.plainSymbol ['_', 'c'], .vector [.plainSymbol ['_', 'a']], .vector [.plainSymbol ['_', 'b']]]) = true ∧
    ∀ σ v, v ∈ [Edn.integer 3, .integer 2, .vector [.integer 1]] → ∀ c, Matches σ v (.vector [.plainSymbol ['_', c]]) →
      v = .vector [.integer 1] := by
  refine ⟨by decide +kernel, ?_⟩
  intro σ v hv c hm
  simp only [List.mem_cons, List.not_mem_nil, or_false] at hv
  rcases hv with rfl | rfl | rfl
  · cases hm
  · cases hm
  · rfl

/-- Values and patterns that meet what the theorems ask. -/
theorem C87_example : Whole chainValue ∧ Whole chainPattern ∧ Whole (.vector [ph 'x', .set [.plainSymbol ['_']], ph 'x']) ∧
    Ordered (.vector [ph 'x', .set [.plainSymbol ['_']], ph 'x']) ∧
    fitsPattern (.vector [.integer 1, .set [.nil], .integer 1]) (.vector [ph 'x', .set [.plainSymbol ['_']], ph 'x']) = true ∧
    fitsPattern (.vector [.integer 1, .set [.nil], .integer 2]) (.vector [ph 'x', .set [.plainSymbol ['_']], ph 'x']) = false := by
  have hi : ∀ n, Whole (.integer n) := fun n => whole_leaf (by simp) (by simp) (by simp) (by simp)
  have hs : ∀ s, Whole (.plainSymbol s) := fun n => whole_leaf (by simp) (by simp) (by simp) (by simp)
  refine ⟨?_, ?_, ?_, ?_, by decide +kernel, by decide +kernel⟩
  · refine .set ?_
    simp only [List.mem_cons, List.not_mem_nil, or_false, forall_eq_or_imp, forall_eq]
    exact ⟨.vector (by simp [hi]), .vector (by simp [hi])⟩
  · refine .set ?_
    simp only [List.mem_cons, List.not_mem_nil, or_false, forall_eq_or_imp, forall_eq]
    exact ⟨.vector (by simp [hs, ph]), .vector (by simp [hs, ph])⟩
  · refine .vector ?_
    simp only [List.mem_cons, List.not_mem_nil, or_false, forall_eq_or_imp, forall_eq]
    exact ⟨hs _, .set (by simp [hs]), hs _⟩
  · refine .vector ?_
    simp only [List.mem_cons, List.not_mem_nil, or_false, forall_eq_or_imp, forall_eq]
    have ho : Ordered (ph 'x') := .other (by simp [ph]) (by simp [ph]) (by simp [ph]) (by simp [ph])
    exact ⟨ho, .set (by simp; exact .symbol (by decide)), ho⟩

end Mentat.Edn
