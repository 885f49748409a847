import Verif.Model.PrettyPrint
import Verif.Props.EdnText
import Verif.Proofs.KernelRfl
/- C86: pretty printing. -/
namespace Mentat.EdnText
open Mentat Edn EdnParse

/-- The layouts of a document, whatever the width. -/
inductive Lays : Doc → Text → Prop
  | nil : Lays .nil []
  | text {s} : Lays (.text s) s
  | space : Lays .line [' ']
  | newline {n} : Lays .line ('\n' :: List.replicate n ' ')
  | append {a b s t} : Lays a s → Lays b t → Lays (.append a b) (s ++ t)
  | nest {n d s} : Lays d s → Lays (.nest n d) s
  | group {d s} : Lays d s → Lays (.group d) s

theorem render_lays (width : Nat) (d : Doc) (flat : Bool) (ind : Nat) (k : Int → Bool) (pos : Nat) :
    Lays d (d.render width flat ind k pos).1 := by
  induction d generalizing flat ind k pos with
  | nil => exact .nil
  | text s => exact .text
  | line =>
    rw [Doc.render]
    split
    · exact .space
    · exact .newline
  | append a b iha ihb => exact .append (iha ..) (ihb ..)
  | nest n d ih => exact .nest (ih ..)
  | group d ih => exact .group (ih ..)

theorem lays_text {s t : Text} (h : Lays (.text s) t) : t = s := by cases h; rfl

theorem lays_append {a b : Doc} {t : Text} (h : Lays (.append a b) t) : ∃ s u, t = s ++ u ∧ Lays a s ∧ Lays b u := by
  cases h with | append h1 h2 => exact ⟨_, _, rfl, h1, h2⟩

theorem lays_group {d : Doc} {t : Text} (h : Lays (.group d) t) : Lays d t := by cases h with | group h => exact h

theorem lays_nest {n : Nat} {d : Doc} {t : Text} (h : Lays (.nest n d) t) : Lays d t := by cases h with | nest h => exact h

theorem blank_replicate (n : Nat) : Blank (List.replicate n ' ') := by
  induction n with
  | zero => exact .nil
  | succ n ih => exact .space (by decide) ih

theorem lays_line {t : Text} (h : Lays .line t) : Blank t ∧ t ≠ [] := by
  cases h with
  | space => exact ⟨.space (by decide) .nil, by simp⟩
  | newline => exact ⟨.space (by decide) (blank_replicate _), by simp⟩

theorem lays_three {a b : Text} {d : Doc} {t : Text} (h : Lays (.append (.append (.text a) d) (.text b)) t) :
    ∃ s, t = a ++ (s ++ b) ∧ Lays d s := by
  obtain ⟨x, y, rfl, h1, h2⟩ := lays_append h
  obtain ⟨u, s, rfl, h3, h4⟩ := lays_append h1
  rw [lays_text h2, lays_text h3]
  exact ⟨s, by simp, h4⟩

theorem lays_bracket {o c : Text} {ds : List Doc} {t : Text} (h : Lays (Doc.bracket o ds c) t) :
    ∃ s, t = o ++ (s ++ c) ∧ Lays (Doc.sep ds) s := by
  obtain ⟨s, h1, h2⟩ := lays_three (lays_group h)
  exact ⟨s, h1, lays_nest h2⟩

theorem asDocs_eq (l : List Edn) : asDocs l = l.map asDoc := by
  induction l with
  | nil => rw [asDocs]; rfl
  | cons v l ih => rw [asDocs, ih]; rfl

/-- A layout of documents with lines between them. -/
theorem lays_sep {l : List Edn} (hl : ∀ x ∈ l, ∀ t, Lays (asDoc x) t → Written x t) {t : Text}
    (h : Lays (Doc.sep (l.map asDoc)) t) (hne : l ≠ []) {g : Text} (hg : Blank g) :
    ∃ ps : List Piece, ps.map (·.val) = l ∧ (∀ p ∈ ps, Written p.val p.text) ∧ (∀ p ∈ ps, Blank p.gap) ∧
      (∀ p ∈ ps.tail, p.gap ≠ []) ∧ (∀ p, ps.head? = some p → p.gap = g) ∧ body ps [] = g ++ t := by
  induction l generalizing t g with
  | nil => exact absurd rfl hne
  | cons x l ih =>
    cases l with
    | nil =>
      refine ⟨[⟨g, x, t⟩], rfl, ?_, by simpa using hg, by simp, by simp, by simp [body]⟩
      simpa using hl x (by simp) t h
    | cons y l =>
      rw [List.map_cons, List.map_cons, Doc.sep] at h
      · obtain ⟨tx, u, rfl, h1, h2⟩ := lays_append h
        obtain ⟨g', t', rfl, h3, h4⟩ := lays_append h2
        obtain ⟨hb, hb'⟩ := lays_line h3
        rw [← List.map_cons] at h4
        obtain ⟨ps, i1, i2, i3, i4, i5, i6⟩ := ih (fun z hz => hl z (by simp [hz])) h4 (by simp) hb
        refine ⟨⟨g, x, tx⟩ :: ps, by simp [i1], ?_, ?_, ?_, by simp, by simp [body, i6]⟩
        · intro p hp
          rcases List.mem_cons.1 hp with rfl | hp
          exacts [hl x (by simp) tx h1, i2 p hp]
        · intro p hp
          rcases List.mem_cons.1 hp with rfl | hp
          exacts [hg, i3 p hp]
        · intro p hp
          rw [List.tail_cons] at hp
          cases ps with
          | nil => simp at hp
          | cons q ps =>
            rcases List.mem_cons.1 hp with rfl | hp
            · rw [i5 p rfl]; exact hb'
            · exact i4 p hp
      · simp

theorem lays_sep_apart {l : List Edn} (hl : ∀ x ∈ l, ∀ t, Lays (asDoc x) t → Written x t) {t : Text}
    (h : Lays (Doc.sep (l.map asDoc)) t) :
    ∃ ps : List Piece, ps.map (·.val) = l ∧ (∀ p ∈ ps, Written p.val p.text) ∧ Apart ps [] ∧ body ps [] = t := by
  cases l with
  | nil =>
    cases h
    exact ⟨[], rfl, by simp, ⟨by simp, by simp, .nil⟩, rfl⟩
  | cons x l =>
    obtain ⟨ps, h1, h2, h3, h4, -, h6⟩ := lays_sep hl h (by simp) .nil
    exact ⟨ps, h1, h2, ⟨h3, h4, .nil⟩, by simpa using h6⟩

def entryDoc (p : Edn × Edn) : Doc := .group (.append (.append (asDoc p.1) .line) (asDoc p.2))

theorem entries_eq (l : List (Edn × Edn)) : Doc.entries (asDocs (flat l)) = l.map entryDoc := by
  rw [asDocs_eq]
  induction l with
  | nil => rfl
  | cons p l ih =>
    have : flat (p :: l) = p.1 :: p.2 :: flat l := rfl
    rw [this, List.map_cons, List.map_cons, Doc.entries, ih]
    rfl

/-- The groups of entries are laid out like keys and values one after the other. -/
theorem lays_entries {l : List (Edn × Edn)} {t : Text} (h : Lays (Doc.sep (l.map entryDoc)) t) :
    Lays (Doc.sep ((flat l).map asDoc)) t := by
  induction l generalizing t with
  | nil => exact h
  | cons p l ih =>
    have hfl : flat (p :: l) = p.1 :: p.2 :: flat l := rfl
    have hentry : ∀ {s}, Lays (entryDoc p) s → ∃ a g b, s = a ++ (g ++ b) ∧ Lays (asDoc p.1) a ∧ Lays .line g ∧ Lays (asDoc p.2) b := by
      intro s hs
      obtain ⟨x, b, rfl, h1, h2⟩ := lays_append (lays_group hs)
      obtain ⟨a, g, rfl, h3, h4⟩ := lays_append h1
      exact ⟨a, g, b, by simp, h3, h4, h2⟩
    rw [hfl]
    cases l with
    | nil =>
      obtain ⟨a, g, b, rfl, h1, h2, h3⟩ := hentry h
      exact .append h1 (.append h2 h3)
    | cons q l =>
      rw [List.map_cons, List.map_cons, Doc.sep] at h
      · obtain ⟨s, u, rfl, h1, h2⟩ := lays_append h
        obtain ⟨g', t', rfl, h3, h4⟩ := lays_append h2
        rw [← List.map_cons] at h4
        obtain ⟨a, g, b, rfl, h5, h6, h7⟩ := hentry h1
        have hi := ih h4
        have hq : flat (q :: l) = q.1 :: q.2 :: flat l := rfl
        rw [hq] at hi ⊢
        simp only [List.map_cons, Doc.sep, List.append_assoc] at hi ⊢
        exact .append h5 (.append h6 (.append h7 (.append h3 hi)))
      · simp

theorem lastFor_nodup {m : List (Edn × Edn)} (hn : (m.map (·.1)).Nodup) (k v : Edn) : (k, v) ∈ m ↔ lastFor k m v := by
  constructor
  · intro h
    obtain ⟨p, s, e⟩ := List.append_of_mem h
    refine ⟨p, s, e, ?_⟩
    rintro q hq rfl
    rw [e, List.map_append, List.map_cons, List.nodup_append, List.nodup_cons] at hn
    exact hn.2.1.1 (List.mem_map.2 ⟨q, hq, rfl⟩)
  · rintro ⟨p, s, e, -⟩
    rw [e]; simp

theorem lays_written {v : Edn} (h : Readable v) : ∀ t, Lays (asDoc v) t → Written v t := by
  induction h with
  | nil =>
    intro t ht
    rw [asDoc] at ht
    · rw [lays_text ht]; exact .simple .nil (by intro l; simp)
    all_goals simp
  | boolean b =>
    intro t ht
    rw [asDoc] at ht
    · rw [lays_text ht]; exact .simple (.boolean b) (by intro l; simp)
    all_goals simp
  | integer n h1 h2 =>
    intro t ht
    rw [asDoc] at ht
    · rw [lays_text ht]; exact .simple (.integer n h1 h2) (by intro l; simp)
    all_goals simp
  | bigInteger n =>
    intro t ht
    rw [asDoc] at ht
    · rw [lays_text ht]; exact .simple (.bigInteger n) (by intro l; simp)
    all_goals simp
  | float f h1 =>
    intro t ht
    rw [asDoc] at ht
    · rw [lays_text ht]; exact .simple (.float f h1) (by intro l; simp)
    all_goals simp
  | fraction d h1 h2 =>
    intro t ht
    rw [asDoc] at ht
    · rw [lays_text ht]; exact .simple (.fraction d h1 h2) (by intro l; simp)
    all_goals simp
  | plainSymbol s h1 h2 =>
    intro t ht
    rw [asDoc] at ht
    · rw [lays_text ht]; exact .simple (.plainSymbol s h1 h2) (by intro l; simp)
    all_goals simp
  | plainKeyword k n h1 h2 =>
    intro t ht
    rw [asDoc] at ht
    · rw [lays_text ht]; exact .simple (.plainKeyword k n h1 h2) (by intro l; simp)
    all_goals simp
  | nsKeyword k ns n h1 h2 h3 =>
    intro t ht
    rw [asDoc] at ht
    · rw [lays_text ht]; exact .simple (.nsKeyword k ns n h1 h2 h3) (by intro l; simp)
    all_goals simp
  | text s h1 =>
    intro t ht
    rw [asDoc] at ht
    obtain ⟨u, rfl, hu⟩ := lays_three ht
    rw [lays_text hu]
    have := Written.simple (.text s h1) (by intro l; simp)
    rwa [print] at this
  | instant i h1 =>
    intro t ht
    rw [asDoc] at ht
    obtain ⟨u, rfl, hu⟩ := lays_three ht
    rw [lays_text hu]
    have := Written.simple (.instant i h1) (by intro l; simp)
    rwa [print] at this
  | uuid u h1 =>
    intro t ht
    rw [asDoc] at ht
    obtain ⟨u, rfl, hu⟩ := lays_three ht
    rw [lays_text hu]
    have := Written.simple (.uuid _ h1) (by intro l; simp)
    rwa [print] at this
  | nsSymbol k ns n hk h1 h2 h3 =>
    intro t ht
    rw [asDoc] at ht
    obtain ⟨u, rfl, hu⟩ := lays_three ht
    rw [lays_text hu]
    have := Written.simple (.nsSymbol k ns n hk h1 h2 h3) (by intro l; simp)
    rw [print] at this
    have e := namespaced_eq hk
    obtain ⟨c, r, rfl, -⟩ := h1
    have e' : k.display = k.parts.1 ++ (['/'] ++ k.parts.2) := by
      subst e
      simp [NName.display, NName.parts]
    rwa [e'] at this
  | vector l _ ih =>
    intro t ht
    rw [asDoc, asDocs_eq] at ht
    obtain ⟨s, rfl, hs⟩ := lays_bracket ht
    obtain ⟨ps, rfl, h2, h3, rfl⟩ := lays_sep_apart ih hs
    exact .vector h2 h3
  | list l _ ih =>
    intro t ht
    rw [asDoc, asDocs_eq] at ht
    obtain ⟨s, rfl, hs⟩ := lays_bracket ht
    obtain ⟨ps, rfl, h2, h3, rfl⟩ := lays_sep_apart ih hs
    exact .list h2 h3
  | set l _ hi ih =>
    intro t ht
    rw [asDoc, asDocs_eq] at ht
    obtain ⟨s, rfl, hs⟩ := lays_bracket ht
    obtain ⟨ps, rfl, h2, h3, rfl⟩ := lays_sep_apart ih hs
    exact .set h2 h3 hi fun _ => Iff.rfl
  | map l hr hi ih =>
    intro t ht
    rw [asDoc, entries_eq] at ht
    obtain ⟨s, rfl, hs⟩ := lays_three (lays_group ht)
    rw [← List.map_reverse] at hs
    have hmem : ∀ x, x ∈ flat l.reverse ↔ x ∈ flat l := by intro x; simp [flat]
    obtain ⟨ps, h1, h2, h3, rfl⟩ := lays_sep_apart (fun x hx => ih x ((hmem x).1 hx)) (lays_entries (lays_nest hs))
    have hk : ∀ y ∈ l.map (·.1), Held y := by
      intro y hy
      obtain ⟨p, hp, rfl⟩ := List.mem_map.1 hy
      exact (hr p.1 (List.mem_flatMap.2 ⟨p, hp, by simp⟩)).held
    have hn := increasing_nodup hk hi
    refine .map h2 h3 h1 hi fun k v => ?_
    rw [← lastFor_nodup (by rw [List.map_reverse]; exact List.pairwise_reverse.2 (hn.imp fun h => h.symm)), List.mem_reverse]

/-- C86: a readable value pretty printed at any width is read as this value. -/
theorem C86_reads_partial {v : Edn} (h : Readable v) (width : Nat) : parse (pretty width v) = .ok v [] :=
  C85_reads_alone (lays_written h _ (render_lays ..))

/-- Texts with a space between each two. -/
def spaced : List Text → Text
  | [] => []
  | [t] => t
  | t :: ts => t ++ (' ' :: spaced ts)

/-- Texts of keys and values in turn. -/
def entryTexts : List Text → List Text
  | k :: v :: ts => (k ++ (' ' :: v)) :: entryTexts ts
  | _ => []

mutual
/-- A value in one line, with one space between each two values and the entries of maps with the greatest key first. -/
def oneLine : Edn → Text
  | .vector l => '[' :: (spaced (oneLines l) ++ [']'])
  | .list l => '(' :: (spaced (oneLines l) ++ [')'])
  | .set l => '#' :: '{' :: (spaced (oneLines l) ++ ['}'])
  | .map l => '{' :: (spaced (entryTexts (oneLines l)).reverse ++ ['}'])
  | .nsSymbol k => k.parts.1 ++ ('/' :: k.parts.2)
  | v => print v
def oneLines : List Edn → List Text
  | [] => []
  | v :: l => oneLine v :: oneLines l
end

/-- The text of a document when none of its groups is broken. -/
def flatText : Doc → Text
  | .nil => []
  | .text s => s
  | .line => [' ']
  | .append a b => flatText a ++ flatText b
  | .nest _ d => flatText d
  | .group d => flatText d

theorem utf8Len_append (s t : Text) : utf8Len (s ++ t) = utf8Len s + utf8Len t := by
  simp [utf8Len]

theorem render_flat (width : Nat) (d : Doc) (ind : Nat) (k : Int → Bool) (pos : Nat) :
    (d.render width true ind k pos).1 = flatText d := by
  induction d generalizing ind k pos with
  | nil => rfl
  | text s => rfl
  | line => rfl
  | append a b iha ihb => rw [Doc.render, flatText]; simp only [iha, ihb]
  | nest n d ih => exact ih ..
  | group d ih => rw [Doc.render, flatText, Bool.true_or]; exact ih ..

theorem fits_flat (d : Doc) {k : Int → Bool} {rem : Int} (h : (utf8Len (flatText d) : Int) ≤ rem)
    (hk : k (rem - utf8Len (flatText d)) = true) : d.fits true k rem = true := by
  induction d generalizing k rem with
  | nil => simpa [flatText, utf8Len, Doc.fits] using hk
  | text s =>
    rw [Doc.fits, Bool.and_eq_true]
    exact ⟨by simp; omega, hk⟩
  | line =>
    have : utf8Len [' '] = 1 := by decide
    rw [flatText, this] at h hk
    rw [Doc.fits, Bool.and_eq_true]
    exact ⟨by simp; omega, by simpa using hk⟩
  | append a b iha ihb =>
    rw [flatText, utf8Len_append] at h hk
    refine iha (by omega) (ihb (by omega) ?_)
    rw [← hk]; congr 1; omega
  | nest n d ih => exact ih h hk
  | group d ih => exact ih h hk

theorem flat_sep (ds : List Doc) : flatText (Doc.sep ds) = spaced (ds.map flatText) := by
  induction ds with
  | nil => rfl
  | cons d ds ih =>
    cases ds with
    | nil => rfl
    | cons e ds => rw [List.map_cons, List.map_cons, spaced, ← List.map_cons, ← ih] <;> simp [Doc.sep, flatText]

theorem flat_entries (ds : List Doc) : (Doc.entries ds).map flatText = entryTexts (ds.map flatText) := by
  match ds with
  | [] => rfl
  | [d] => rfl
  | k :: v :: ds => simp [Doc.entries, entryTexts, flatText, flat_entries ds]

mutual
theorem flat_doc (v : Edn) : flatText (asDoc v) = oneLine v := by
  match v with
  | .vector l =>
    have h := flat_docs l
    simp [asDoc, Doc.bracket, flatText, flat_sep, h, oneLine]
  | .list l =>
    have h := flat_docs l
    simp [asDoc, Doc.bracket, flatText, flat_sep, h, oneLine]
  | .set l =>
    have h := flat_docs l
    simp [asDoc, Doc.bracket, flatText, flat_sep, h, oneLine]
  | .map l =>
    have h := flat_docs l
    simp [asDoc, flatText, flat_sep, flat_entries, h, oneLine]
  | .nsSymbol k => simp [asDoc, flatText, oneLine]
  | .text _ | .uuid _ | .instant _ => simp [asDoc, flatText, oneLine, print]
  | .nil | .boolean _ | .integer _ | .bigInteger _ | .float _ | .plainSymbol _ | .keyword _ => simp [asDoc, flatText, oneLine]
theorem flat_docs (l : List Edn) : (asDocs l).map flatText = oneLines l := by
  match l with
  | [] => simp [asDocs, oneLines]
  | v :: l =>
    have h1 := flat_doc v
    have h2 := flat_docs l
    simp [asDocs, oneLines, h1, h2]
end

theorem asDoc_cases (v : Edn) : (∃ d, asDoc v = .group d) ∨
    ∀ width ind k pos, ((asDoc v).render width false ind k pos).1 = flatText (asDoc v) := by
  cases v
  case vector l => exact .inl ⟨_, by rw [asDoc]; rfl⟩
  case list l => exact .inl ⟨_, by rw [asDoc]; rfl⟩
  case set l => exact .inl ⟨_, by rw [asDoc]; rfl⟩
  case map l => exact .inl ⟨_, by rw [asDoc]⟩
  all_goals
    refine .inr fun width ind k pos => ?_
    rw [asDoc]
    · rfl
    all_goals simp

/-- C86: a value that fits in the width is printed in one line. -/
theorem C86_one_line {v : Edn} {width : Nat} (h : utf8Len (oneLine v) ≤ width) : pretty width v = oneLine v := by
  rw [← flat_doc] at h ⊢
  rcases asDoc_cases v with ⟨d, hd⟩ | hd
  · rw [hd, flatText] at h
    rw [pretty, hd, Doc.render, fits_flat d (by simpa using h) (by simpa using h), Bool.or_true, render_flat]
    rfl
  · exact hd ..

/-! ### The width of the lines -/

/-- The pieces of a layout: a text of the document, or one of its lines as a space or as a line end with an indentation. -/
inductive Printed where
  | text (s : Text)
  | space
  | newline (n : Nat)

def Printed.chars : Printed → Text
  | text s => s
  | space => [' ']
  | newline n => '\n' :: List.replicate n ' '

/-- The layouts of a document, in pieces. -/
inductive LaysIn : Doc → List Printed → Prop
  | nil : LaysIn .nil []
  | text {s} : LaysIn (.text s) [.text s]
  | space : LaysIn .line [.space]
  | newline {n} : LaysIn .line [.newline n]
  | append {a b s t} : LaysIn a s → LaysIn b t → LaysIn (.append a b) (s ++ t)
  | nest {n d s} : LaysIn d s → LaysIn (.nest n d) s
  | group {d s} : LaysIn d s → LaysIn (.group d) s

/-- The lines of a layout: the width of each, and whether there is one of the document's lines in it; the first
line begins with `pos` columns. -/
def linesOf : Nat → Bool → List Printed → List (Nat × Bool)
  | pos, sp, [] => [(pos, sp)]
  | pos, sp, .text s :: r => linesOf (pos + utf8Len s) sp r
  | pos, _, .space :: r => linesOf (pos + 1) true r
  | pos, sp, .newline n :: r => (pos, sp) :: linesOf n false r

def firstLen : List Printed → Nat
  | .text s :: r => utf8Len s + firstLen r
  | .space :: r => 1 + firstLen r
  | _ => 0

def firstSpace : List Printed → Bool
  | .text _ :: r => firstSpace r
  | .space :: _ => true
  | _ => false

def otherLines : List Printed → List (Nat × Bool)
  | .text _ :: r => otherLines r
  | .space :: r => otherLines r
  | .newline n :: r => linesOf n false r
  | [] => []

theorem linesOf_eq (ps : List Printed) : ∀ pos sp, linesOf pos sp ps = (pos + firstLen ps, sp || firstSpace ps) :: otherLines ps := by
  induction ps with
  | nil => intro pos sp; simp [linesOf, firstLen, firstSpace, otherLines]
  | cons x r ih =>
    intro pos sp
    cases x with
    | text s => simp [linesOf, firstLen, firstSpace, otherLines, ih]; omega
    | space => simp [linesOf, firstLen, firstSpace, otherLines, ih]; omega
    | newline n => simp [linesOf, firstLen, firstSpace, otherLines]

/-- `Doc.render` in pieces. -/
def renderIn (width : Nat) : Doc → Bool → Nat → (Int → Bool) → Nat → List Printed × Nat
  | .nil, _, _, _, pos => ([], pos)
  | .text s, _, _, _, pos => ([.text s], pos + utf8Len s)
  | .line, flat, ind, _, pos => if flat then ([.space], pos + 1) else ([.newline ind], ind)
  | .append a b, flat, ind, k, pos =>
    let r := renderIn width a flat ind (b.fits flat k) pos
    let q := renderIn width b flat ind k r.2
    (r.1 ++ q.1, q.2)
  | .nest n d, flat, ind, k, pos => renderIn width d flat (ind + n) k pos
  | .group d, flat, ind, k, pos => renderIn width d (flat || d.fits true k ((width : Int) - pos)) ind k pos

theorem renderIn_eq (width : Nat) (d : Doc) (flat : Bool) (ind : Nat) (k : Int → Bool) (pos : Nat) :
    d.render width flat ind k pos = ((renderIn width d flat ind k pos).1.flatMap Printed.chars, (renderIn width d flat ind k pos).2) := by
  induction d generalizing flat ind k pos with
  | nil => rfl
  | text s => simp [Doc.render, renderIn, Printed.chars]
  | line => cases flat <;> simp [Doc.render, renderIn, Printed.chars]
  | append a b iha ihb => simp only [Doc.render, renderIn, iha, ihb, List.flatMap_append]
  | nest n d ih => exact ih ..
  | group d ih => exact ih ..

theorem renderIn_lays (width : Nat) (d : Doc) (flat : Bool) (ind : Nat) (k : Int → Bool) (pos : Nat) :
    LaysIn d (renderIn width d flat ind k pos).1 := by
  induction d generalizing flat ind k pos with
  | nil => exact .nil
  | text s => exact .text
  | line => cases flat <;> constructor
  | append a b iha ihb => exact .append (iha ..) (ihb ..)
  | nest n d ih => exact .nest (ih ..)
  | group d ih => exact .group (ih ..)

theorem renderIn_pos (width : Nat) (d : Doc) (ind : Nat) (k : Int → Bool) (pos : Nat) :
    (renderIn width d true ind k pos).2 = pos + utf8Len (flatText d) := by
  induction d generalizing ind k pos with
  | nil => simp [renderIn, flatText, utf8Len]
  | text s => rfl
  | line => have : utf8Len [' '] = 1 := by decide
            simp [renderIn, flatText, this]
  | append a b iha ihb => simp only [renderIn, iha, ihb, flatText, utf8Len_append]; omega
  | nest n d ih => exact ih ..
  | group d ih => rw [renderIn, Bool.true_or]; exact ih ..

theorem fits_rest (d : Doc) {k : Int → Bool} {rem : Int} (h : d.fits true k rem = true) :
    k (rem - utf8Len (flatText d)) = true := by
  induction d generalizing k rem with
  | nil => simpa [flatText, utf8Len, Doc.fits] using h
  | text s => rw [Doc.fits, Bool.and_eq_true] at h; exact h.2
  | line =>
    have : utf8Len [' '] = 1 := by decide
    rw [Doc.fits, Bool.and_eq_true] at h
    rw [flatText, this]
    simpa using h.2
  | append a b iha ihb =>
    have := ihb (iha h)
    rw [flatText, utf8Len_append, ← this]
    congr 1; omega
  | nest n d ih => exact ih h
  | group d ih => exact ih h

/-- What is laid out from the column `pos` is as narrow as `k` says, and has no line that is too wide and yet could have been
broken. -/
structure Keeps (width : Nat) (k : Int → Bool) (pos : Nat) (ps : List Printed) : Prop where
  fits : k ((width : Int) - pos) = true → pos + firstLen ps ≤ width
  first : firstSpace ps = true → pos + firstLen ps ≤ width
  rest : ∀ l ∈ otherLines ps, l.2 = true → l.1 ≤ width

theorem renderIn_keeps (width : Nat) (d : Doc) (flat : Bool) (ind : Nat) (k : Int → Bool) (pos : Nat) (ps : List Printed)
    (hf : flat = true → d.fits true k ((width : Int) - pos) = true)
    (h : Keeps width k (renderIn width d flat ind k pos).2 ps) :
    Keeps width (d.fits flat k) pos ((renderIn width d flat ind k pos).1 ++ ps) := by
  induction d generalizing flat ind k pos ps with
  | nil => exact h
  | text s =>
    refine ⟨fun hk => ?_, fun hs => ?_, h.rest⟩
    · rw [Doc.fits, Bool.and_eq_true] at hk
      have := h.fits (by rw [← hk.2]; congr 1; simp only [renderIn]; omega)
      simp only [renderIn, List.singleton_append, firstLen] at this ⊢
      omega
    · have := h.first hs
      simp only [renderIn, List.singleton_append, firstLen] at this ⊢
      omega
  | line =>
    cases flat with
    | true =>
      have key := hf rfl
      rw [Doc.fits, Bool.and_eq_true] at key
      have := h.fits (by
        have h2 := key.2
        simp only [Bool.not_true, Bool.false_or] at h2
        show k ((width : Int) - ((pos + 1 : Nat) : Int)) = true
        rw [show (width : Int) - ((pos + 1 : Nat) : Int) = (width : Int) - pos - 1 by omega]
        exact h2)
      have this : pos + firstLen (Printed.space :: ps) ≤ width := by
        simp only [renderIn, if_true, firstLen] at this ⊢
        omega
      exact ⟨fun _ => this, fun _ => this, h.rest⟩
    | false =>
      refine ⟨fun hk => ?_, fun hs => (by cases hs), ?_⟩
      · rw [Doc.fits, Bool.and_eq_true, decide_eq_true_eq] at hk
        show pos + 0 ≤ width
        omega
      · show ∀ l ∈ linesOf ind false ps, _
        rw [linesOf_eq]
        intro l hl hs
        rcases List.mem_cons.1 hl with rfl | hl
        · exact h.first (by simpa using hs)
        · exact h.rest l hl hs
  | append a b iha ihb =>
    have hb : flat = true → b.fits true k ((width : Int) - (renderIn width a flat ind (b.fits flat k) pos).2) = true := by
      rintro rfl
      have := fits_rest a (hf rfl)
      rw [renderIn_pos, ← this]
      congr 1; omega
    have := iha flat ind (b.fits flat k) pos _ (fun e => by subst e; exact hf rfl) (ihb flat ind k _ ps hb h)
    rw [← List.append_assoc] at this
    exact this
  | nest n d ih => exact ih flat (ind + n) k pos ps hf h
  | group d ih =>
    rw [renderIn] at h ⊢
    by_cases hd : d.fits true k ((width : Int) - pos) = true
    · have := ih _ ind k pos ps (fun _ => hd) h
      rw [hd, Bool.or_true] at this ⊢
      exact ⟨fun _ => this.fits hd, this.first, this.rest⟩
    · have hfl : flat = false := by
        cases flat with
        | false => rfl
        | true => exact absurd (hf rfl) hd
      subst hfl
      rw [Bool.false_or] at h ⊢
      have := ih _ ind k pos ps (fun e => e) h
      rw [show d.fits true k ((width : Int) - pos) = false by simpa using hd] at this ⊢
      exact this

/-- C86: no line is wider than allowed if it could have been broken: a line with a space between members is never wider
than the width.  (The lines of the layout, not of the text: a string with a line end in it is a piece like any other.) -/
theorem C86_narrow (width : Nat) (v : Edn) : ∃ ps, LaysIn (asDoc v) ps ∧ ps.flatMap Printed.chars = pretty width v ∧
    ∀ l ∈ linesOf 0 false ps, l.2 = true → l.1 ≤ width := by
  have hk := renderIn_keeps width (asDoc v) false 0 (fun rem => decide (0 ≤ rem)) 0 [] (by simp)
    ⟨fun h => by simp only [decide_eq_true_eq] at h; simp only [firstLen]; omega, fun h => (by cases h), fun l h => (by cases h)⟩
  rw [List.append_nil] at hk
  refine ⟨_, renderIn_lays width (asDoc v) false 0 (fun rem => decide (0 ≤ rem)) 0, ?_, ?_⟩
  · rw [pretty, renderIn_eq]
  · rw [linesOf_eq]
    intro l hl hs
    rcases List.mem_cons.1 hl with rfl | hl
    · exact hk.first (by simpa using hs)
    · exact hk.rest l hl hs

/-- C86 fails where C07 does: text with a quote is not read at all, text with a backslash is read as other text, and a
symbol beginning with `nil` as two values. -/
theorem C86_fails (width : Nat) :
    parse (pretty width (.text ['"'])) = .fail ∧
    parse (pretty width (.text ['\\', 'n'])) = .ok (.text ['n']) [] ∧
    ∃ v, parse (pretty width (.vector [.plainSymbol "nilly".toList])) = .ok v [] ∧ v ≠ .vector [.plainSymbol "nilly".toList] := by
  have h1 : ∀ t, pretty width (.text t) = print (.text t) := fun t => by simp [pretty, asDoc, Doc.render, print]
  have h2 : pretty width (.vector [.plainSymbol "nilly".toList]) = "[nilly]".toList := by
    simp [pretty, asDoc, asDocs, Doc.bracket, Doc.render, Doc.sep, print]
  refine ⟨?_, ?_, .vector [.nil, .plainSymbol ['l', 'y']], ?_, by simp⟩
  · rw [h1]; exact C07_fails.1
  · rw [h1]; exact C07_fails.2.1
  · rw [h2]; kernel_rfl

/-- The value of the example. -/
def prettyValue : Edn :=
  .vector [.map (flat [(.integer 2, .nil), (.integer 1, .boolean true)]), .list [.integer 3, .vector []]]

theorem C86_example : Readable prettyValue ∧ utf8Len (oneLine prettyValue) = 23 ∧
    oneLine prettyValue = "[{1 true 2 nil} (3 [])]".toList ∧ pretty 10 prettyValue = "[{1 true\n  2 nil}\n (3 [])]".toList := by
  refine ⟨?_, by decide +kernel, by decide +kernel, by decide +kernel⟩
  refine .vector _ ?_
  simp only [List.mem_cons, List.not_mem_nil, or_false, forall_eq_or_imp, forall_eq]
  refine ⟨.map _ ?_ (by unfold Increasing; decide +kernel), .list _ ?_⟩
  · simp only [flat, List.flatMap_cons, List.flatMap_nil, List.cons_append, List.nil_append, List.mem_cons, List.not_mem_nil,
      or_false, forall_eq_or_imp, forall_eq]
    exact ⟨.integer _ (by decide) (by decide), .nil, .integer _ (by decide) (by decide), .boolean _⟩
  · simp only [List.mem_cons, List.not_mem_nil, or_false, forall_eq_or_imp, forall_eq]
    exact ⟨.integer _ (by decide) (by decide), .vector _ (by simp)⟩

end Mentat.EdnText
