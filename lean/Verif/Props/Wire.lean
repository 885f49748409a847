import Verif.Proofs.Wire
import Verif.Props.Replicate
/-
C94: what is read of an uploaded chunk is what was uploaded.
-/
namespace Mentat.Wire

open Mentat.Sync (TxPart Remote Local Later Replica OneToOne EndsWith fastForwardRemote fastForwardLocal
  runLater runLater_later)

/-- The numbers of 64 bits. -/
def I64 (n : Int) : Prop := -9223372036854775808 ≤ n ∧ n ≤ 9223372036854775807

instance (n : Int) : Decidable (I64 n) := inferInstanceAs (Decidable (_ ∧ _))

/-- The values that survive: of the keywords those without quotes, backslashes and control characters, of the doubles those whose
shortest digits are a number below `2^53`, to be shifted by at most 22 places, of the instants those in the years 0 to 9999. -/
def Survives : TypedValue → Prop
  | .ref n | .long n => I64 n
  | .double d => IsDouble d.natAbs ∧ (floatParts d).1 < 2 ^ 53 ∧ (floatParts d).2.natAbs ≤ 22
  | .instant us => -719528 * 86400000000 ≤ us ∧ us < 2932897 * 86400000000
  | .keyword k => k.name ≠ [] ∧ ∀ c ∈ k.ns ++ k.name, ¬ Escaped c
  | .uuid u => u < 2 ^ 128
  | .boolean _ | .string _ => True

/-- The numbers of a partition are of 64 bits. -/
def PartitionOk (p : Partition) : Prop := I64 p.start ∧ I64 p.fin ∧ I64 p.next

/-- A part of a transaction that survives. -/
structure PartOk (p : TxPart) : Prop where
  e : I64 p.e
  a : I64 p.a
  v : Survives p.v
  tx : I64 p.tx
  parts : ∀ m, p.partitions = some m → PartitionOk m.db ∧ PartitionOk m.user ∧ PartitionOk m.tx

theorem decodeInt_ok {n : Int} (h : I64 n) : decodeInt (.int n) = .ok n := by
  unfold decodeInt
  exact if_pos h

/-- Strings are read back, whatever is in them. -/
theorem C94_string (s : Text) : decodeString (.str (escape s)) = .ok s := by
  simp only [decodeString, unescape_escape]

theorem decodeKeyword_eq (k : Keyword) : decodeKeyword (encodeKeyword k) =
    (optional decodeBorrowed (some (if k.ns = [] then .null else .str (escape k.ns)))).bind fun ns =>
    (decodeBorrowed (.str (escape k.name))).bind fun name =>
    if name = [] then .err .other
    else match ns with
      | some [] => .err .other
      | some ns => .ok ⟨ns, name⟩
      | none => .ok ⟨[], name⟩ := rfl

/-- Keywords are read back exactly if they have a name and nothing in them is written escaped; others are errors. -/
theorem C94_keyword (k : Keyword) :
    (decodeKeyword (encodeKeyword k) = .ok k ↔ k.name ≠ [] ∧ ∀ c ∈ k.ns ++ k.name, ¬ Escaped c) ∧
    (decodeKeyword (encodeKeyword k) = .ok k ∨ ∃ e, decodeKeyword (encodeKeyword k) = .err e) := by
  rw [decodeKeyword_eq]
  obtain ⟨ns, name⟩ := k
  have hb : ∀ s : Text, ((∀ c ∈ s, ¬ Escaped c) ∧ decodeBorrowed (.str (escape s)) = .ok s) ∨
      ((∃ c ∈ s, Escaped c) ∧ decodeBorrowed (.str (escape s)) = .err .other) := by
    intro s
    by_cases h : ∃ c ∈ s, Escaped c
    · exact .inr ⟨h, by simp only [decodeBorrowed, borrowed_none s h]⟩
    · have h' : ∀ c ∈ s, ¬ Escaped c := fun c hc he => h ⟨c, hc, he⟩
      exact .inl ⟨h', by simp only [decodeBorrowed, borrowed_escape s h']⟩
  have hns : ((∀ c ∈ ns, ¬ Escaped c) ∧ optional decodeBorrowed (some (if ns = [] then .null else .str (escape ns))) =
        .ok (if ns = [] then none else some ns)) ∨
      ((∃ c ∈ ns, Escaped c) ∧ optional decodeBorrowed (some (if ns = [] then .null else .str (escape ns))) = .err .other) := by
    by_cases h : ns = []
    · subst h
      exact .inl ⟨by simp, rfl⟩
    · simp only [if_neg h]
      rcases hb ns with ⟨h1, h2⟩ | ⟨h1, h2⟩
      · exact .inl ⟨h1, by simp only [optional, h2]; rfl⟩
      · exact .inr ⟨h1, by simp only [optional, h2]; rfl⟩
  simp only
  rcases hns with ⟨h1, h2⟩ | ⟨⟨c, hc, he⟩, h2⟩
  · rw [h2]
    rcases hb name with ⟨h3, h4⟩ | ⟨⟨c, hc, he⟩, h4⟩
    · rw [h4]
      simp only [Res.bind]
      by_cases hn : name = []
      · rw [if_pos hn]
        exact ⟨⟨by simp, fun h => absurd hn h.1⟩, .inr ⟨_, rfl⟩⟩
      · rw [if_neg hn]
        have : (match (if ns = [] then none else some ns : Option Text) with
            | some [] => Res.err .other
            | some ns => .ok (⟨ns, name⟩ : Keyword)
            | none => .ok ⟨[], name⟩) = .ok ⟨ns, name⟩ := by
          cases ns with
          | nil => rfl
          | cons _ _ => rfl
        rw [this]
        refine ⟨⟨fun _ => ⟨hn, fun c hc => ?_⟩, fun _ => rfl⟩, .inl rfl⟩
        rcases List.mem_append.mp hc with hc | hc
        · exact h1 c hc
        · exact h3 c hc
    · rw [h4]
      exact ⟨⟨by simp [Res.bind], fun h => absurd he (h.2 c (by simp [hc]))⟩, .inr ⟨_, rfl⟩⟩
  · rw [h2]
    exact ⟨⟨by simp [Res.bind], fun h => absurd he (h.2 c (by simp [hc]))⟩, .inr ⟨_, rfl⟩⟩

theorem readUuid_ok {u : Nat} (h : u < 2 ^ 128) : readUuid (uuidText u) = some u := by
  unfold readUuid
  have := uuid_ok h []
  rw [show (['"'] : Text) = '"' :: [] from rfl, this]

theorem readInstant_ok {t : DateTime} (h : t.Written) : readInstant t.rfc3339 = some t := by
  unfold readInstant
  have := stamp_rfc3339 h []
  rw [List.append_nil] at this
  rw [this]

theorem decode_ref (j : Json) : decodeValue (.obj [("Ref".toList, j)]) = (decodeInt j).bind fun n => .ok (.ref n) := rfl

theorem decode_long (j : Json) : decodeValue (.obj [("Long".toList, j)]) = (decodeInt j).bind fun n => .ok (.long n) := rfl

theorem decode_double (j : Json) : decodeValue (.obj [("Double".toList, j)]) = (decodeFloat j).bind fun d => .ok (.double d) := rfl

theorem decode_instant (j : Json) : decodeValue (.obj [("Instant".toList, j)]) = (decodeString j).bind fun s => match readInstant s with
    | some t => .ok (.instant t.toMicros)
    | none => .err .other := rfl

theorem decode_string (j : Json) : decodeValue (.obj [("String".toList, j)]) = (decodeString j).bind fun s => .ok (.string s) := rfl

theorem decode_keyword (j : Json) : decodeValue (.obj [("Keyword".toList, j)]) = (decodeKeyword j).bind fun k => .ok (.keyword k) := rfl

theorem decode_uuid (j : Json) : decodeValue (.obj [("Uuid".toList, j)]) = (decodeString j).bind fun s => match readUuid s with
    | some u => .ok (.uuid u)
    | none => .err .other := rfl

/-- The values that survive are read back. -/
theorem C94_value_partial {v : TypedValue} (h : Survives v) : decodeValue (encodeValue v) = .ok v := by
  cases v with
  | ref n => rw [encodeValue, decode_ref, decodeInt_ok h, Res.bind]
  | boolean b => rfl
  | long n => rw [encodeValue, decode_long, decodeInt_ok h, Res.bind]
  | double d => rw [encodeValue, decode_double, decodeFloat_small h.1 h.2.1 h.2.2, Res.bind]
  | instant us =>
    obtain ⟨h1, h2⟩ := h
    have hw : DateTime.Written ⟨us / 1000000, us % 1000000 * 1000⟩ := by
      refine ⟨?_, ?_, ?_, ?_, ?_⟩ <;> simp only <;> omega
    have hm : us / 1000000 * 1000000 + us % 1000000 * 1000 / 1000 = us := by omega
    rw [encodeValue, decode_instant, C94_string, Res.bind]
    simp only [readInstant_ok hw, DateTime.toMicros, hm]
  | string s => rw [encodeValue, decode_string, C94_string, Res.bind]
  | keyword k => rw [encodeValue, decode_keyword, (C94_keyword k).1.mpr h, Res.bind]
  | uuid u =>
    rw [encodeValue, decode_uuid, C94_string, Res.bind]
    simp only [readUuid_ok h]

theorem decodePartition_ok {p : Partition} (h : PartitionOk p) (b : Bool) : decodePartition (encodePartition b p) = .ok p := by
  obtain ⟨h1, h2, h3⟩ := h
  show (decodeInt (.int p.start)).bind (fun a => (decodeInt (.int p.fin)).bind fun b => (decodeInt (.int p.next)).bind fun c =>
    .ok (⟨a, b, c⟩ : Partition)) = _
  rw [decodeInt_ok h1, decodeInt_ok h2, decodeInt_ok h3]
  rfl

theorem decodeParts_ok {m : Parts} (h1 : PartitionOk m.db) (h2 : PartitionOk m.user) (h3 : PartitionOk m.tx) :
    decodeParts (encodeParts m) = .ok m := by
  show (decodePartition (encodePartition false m.db)).bind (fun a => (decodePartition (encodePartition false m.tx)).bind fun b =>
    (decodePartition (encodePartition true m.user)).bind fun c => .ok (⟨a, c, b⟩ : Parts)) = _
  rw [decodePartition_ok h1, decodePartition_ok h2, decodePartition_ok h3]
  rfl

theorem decodePart_eq (jm je ja jv jt jb : Json) : decodePart (.obj [("partitions".toList, jm), ("e".toList, je), ("a".toList, ja),
      ("v".toList, jv), ("tx".toList, jt), ("added".toList, jb)]) =
    (optional decodeParts (some jm)).bind fun m => (decodeInt je).bind fun e => (decodeInt ja).bind fun a =>
    (decodeValue jv).bind fun v => (decodeInt jt).bind fun tx => (decodeBool jb).bind fun b => .ok ⟨m, e, a, v, tx, b⟩ := rfl

/-- A chunk whose value survives is read back as it was. -/
theorem C94_part_partial {p : TxPart} (h : PartOk p) : decodePart (encodePart p) = .ok p := by
  obtain ⟨h1, h2, h3, h4, h5⟩ := h
  have hm : optional decodeParts (some (encodeOptParts p.partitions)) = .ok p.partitions := by
    cases hp : p.partitions with
    | none => rfl
    | some m =>
      obtain ⟨k1, k2, k3⟩ := h5 m hp
      show (decodeParts (encodeParts m)).bind _ = _
      rw [decodeParts_ok k1 k2 k3]
      rfl
  rw [encodePart, decodePart_eq, hm, decodeInt_ok h1, decodeInt_ok h2, C94_value_partial h3, decodeInt_ok h4]
  rfl

/-- If all chunks survive, what is downloaded is what was uploaded: the remote of the other theorems about syncing, which keeps the
chunks themselves, is right. -/
theorem C94_download_partial {r : Remote} (h : ∀ c ∈ r.chunks, PartOk c.2) (uuid : Nat) : after r uuid = r.after uuid := by
  have hc : ∀ id, chunk r id = r.chunk id := by
    intro id
    unfold chunk Sync.Remote.chunk
    cases hf : r.chunks.find? fun c => decide (c.1 = id) with
    | none => rfl
    | some c => exact C94_part_partial (h c (List.mem_of_find?_eq_some hf))
  have hp : ∀ cs, parts r cs = r.parts cs := by
    intro cs
    induction cs with
    | nil => rfl
    | cons c cs ih => rw [parts, Sync.Remote.parts, hc, ih]
  have hd : ∀ xs, download r xs = r.download xs := by
    intro xs
    induction xs with
    | nil => rfl
    | cons x xs ih => rw [download, Sync.Remote.download, hp, ih]
  unfold after Sync.Remote.after
  rw [hd, hd]

/-- Fast-forwarding by way of the JSON reproduces what was uploaded, if all of it survives. -/
theorem C94_replicates_partial {gen : Nat → Nat} {b r : Db} {l up up' : Local} {rem rem' : Remote} {rh : Nat}
    (hb : ReachKept b) (hr : Later b r) (hl : Replica b l.db) (hup : up.db = r)
    (hg : ∀ m n, gen m = gen n → m = n) (hc : ∀ c ∈ rem.chunks, ∀ n, gen n ≠ c.1)
    (hd : (rem.chunks.map (·.1)).Nodup) (hm : OneToOne up.map) (he : EndsWith rem rh)
    (h : fastForwardRemote gen up (some (b.parts.tx.next - 1)) rem rh = .ok (up', rem')) (now : Int)
    (hs : ∀ c ∈ rem'.chunks, PartOk c.2) :
    ∃ txs l', after rem' rh = .ok txs ∧ fastForwardLocal l now txs = .ok (l', .localFastForward) ∧ Replica r l'.db := by
  obtain ⟨txs, l', h1, h2, h3, -⟩ := Sync.C70_replicates_partial hb hr hl hup hg hc hd hm he h now
  exact ⟨txs, l', by rw [C94_download_partial hs]; exact h1, h2, h3⟩

/-- What is not finite is not read at all. -/
theorem C94_fails_infinite (f : FloatV) (hf : ∀ d, f ≠ .finite d) : ∃ e, decodeFloat (encodeFloat f) = .err e := by
  cases f with
  | finite d => exact absurd rfl (hf d)
  | _ => exact ⟨_, rfl⟩

/-! ### Whole syncs -/

/-- The store after some transactions is uploaded, and a store that was the same before them is brought up to date. -/
def wired (txs : List Mentat.Tx) (p : Db → Local → Bool) : Bool :=
  (runLater txs setupDb).any fun r =>
  match fastForwardRemote (fun n => n + 8) { db := r } (some (TX0 + 1)) { head := 7, txs := [⟨7, 0, []⟩] } 7 with
  | .ok (_, rem) => match after rem 7 with
    | .ok ts => match fastForwardLocal { db := setupDb, remoteHead := 7 } 5 ts with
      | .ok (l', .localFastForward) => p r l'
      | _ => false
    | _ => false
  | _ => false

theorem wired_spec {txs : List Mentat.Tx} {p : Db → Local → Bool} (h : wired txs p = true) : ∃ r up' rem ts l', Later setupDb r ∧
    fastForwardRemote (fun n => n + 8) { db := r } (some (TX0 + 1)) { head := 7, txs := [⟨7, 0, []⟩] } 7 = .ok (up', rem) ∧
    after rem 7 = .ok ts ∧ fastForwardLocal { db := setupDb, remoteHead := 7 } 5 ts = .ok (l', .localFastForward) ∧ p r l' = true := by
  unfold wired at h
  cases hr : runLater txs setupDb with
  | none => rw [hr] at h; cases h
  | some r =>
    rw [hr] at h
    simp only [Option.any_some] at h
    split at h
    · rename_i up' rem hup
      split at h
      · rename_i ts hts
        split at h
        · rename_i l' hl
          exact ⟨r, up', rem, ts, l', runLater_later hr, hup, hts, hl, h⟩
        · cases h
      · cases h
    · cases h

/-- The double nearest to 10/11. -/
def tenElevenths : Int := (roundDouble (10 * 2 ^ 1074) 11).getD 0

/-- The next double. -/
def aboveTenElevenths : Int := tenElevenths + 2 ^ 1021

/-- An attribute of doubles, then a value of it. -/
def doubleTxs (d : Int) : List Mentat.Tx :=
  [(install "d" DB_TYPE_DOUBLE DB_CARDINALITY_ONE, [tid "d"]), ([addE 65539 65539 (.double d)], [])]

/-- The full C94 fails for doubles (serde_json is used without `float_roundtrip`): the double nearest to 10/11 arrives as its
neighbour, although the sync is reported as a success. -/
theorem C94_fails_double : ∃ r up' rem ts l', Later setupDb r ∧
    fastForwardRemote (fun n => n + 8) { db := r } (some (TX0 + 1)) { head := 7, txs := [⟨7, 0, []⟩] } 7 = .ok (up', rem) ∧
    after rem 7 = .ok ts ∧ fastForwardLocal { db := setupDb, remoteHead := 7 } 5 ts = .ok (l', .localFastForward) ∧
    Has r.store.rows 65539 65539 (.double tenElevenths) ∧ ¬ Has l'.db.store.rows 65539 65539 (.double tenElevenths) ∧
    Has l'.db.store.rows 65539 65539 (.double aboveTenElevenths) := by
  obtain ⟨r, up', rem, ts, l', h1, h2, h3, h4, h5⟩ := wired_spec (txs := doubleTxs tenElevenths) (p := fun r l' =>
    hasB r 65539 65539 (.double tenElevenths) && (!hasB l'.db 65539 65539 (.double tenElevenths) &&
      hasB l'.db 65539 65539 (.double aboveTenElevenths))) (by decide +kernel)
  rw [Bool.and_eq_true, Bool.and_eq_true, Bool.not_eq_true', hasB_iff, hasB_iff] at h5
  refine ⟨r, up', rem, ts, l', h1, h2, h3, h4, h5.1, ?_, h5.2.2⟩
  rw [← hasB_iff, h5.2.1]
  exact Bool.false_ne_true

/-- A new entity is given an ident with a quotation mark in it. -/
def quoteTxs : List Mentat.Tx := [([addT "e" DB_IDENT (.keyword (kw "x" "a\"b"))], [tid "e"])]

/-- The full C94 fails for keywords (namespaceable_name.rs reads `&str`, which serde_json can only give for what is not escaped):
the upload succeeds, and from then on the download fails for every reader. -/
theorem C94_fails_keyword : ∃ r up' rem, Later setupDb r ∧
    fastForwardRemote (fun n => n + 8) { db := r } (some (TX0 + 1)) { head := 7, txs := [⟨7, 0, []⟩] } 7 = .ok (up', rem) ∧
    (∃ ts, rem.after 7 = .ok ts) ∧ ∃ e, after rem 7 = .err e := by
  have hrun : (runLater quoteTxs setupDb).any (fun r =>
      match fastForwardRemote (fun n => n + 8) { db := r } (some (TX0 + 1)) { head := 7, txs := [⟨7, 0, []⟩] } 7 with
      | .ok (_, rem) => (match rem.after 7 with | .ok _ => true | _ => false) && match after rem 7 with | .err _ => true | _ => false
      | _ => false) = true := by decide +kernel
  cases hr : runLater quoteTxs setupDb with
  | none => rw [hr] at hrun; cases hrun
  | some r =>
    rw [hr] at hrun
    simp only [Option.any_some] at hrun
    split at hrun
    · rename_i up' rem hup
      rw [Bool.and_eq_true] at hrun
      refine ⟨r, up', rem, runLater_later hr, hup, ?_, ?_⟩
      · have h := hrun.1
        split at h
        · exact ⟨_, by assumption⟩
        · cases h
      · have h := hrun.2
        split at h
        · exact ⟨_, by assumption⟩
        · cases h
    · cases hrun

/-- Transactions with a string that is escaped, an ident, a new attribute and a double. -/
def plainTxs : List Mentat.Tx :=
  [([addT "e" xOne (str "say \"hi\"\n")], [tid "e"]),
   (addE xOne DB_IDENT (.keyword (kw "x" "uno")) :: install "d" DB_TYPE_DOUBLE DB_CARDINALITY_ONE, [tid "d"]),
   ([addE 65540 65540 (.double (3 * 2 ^ 1073))], [])]

/-- A store whose new facts all survive, and a chunk with a double in it. -/
theorem C94_example : (∃ r up' rem ts l', Later setupDb r ∧
    fastForwardRemote (fun n => n + 8) { db := r } (some (TX0 + 1)) { head := 7, txs := [⟨7, 0, []⟩] } 7 = .ok (up', rem) ∧
    after rem 7 = .ok ts ∧ fastForwardLocal { db := setupDb, remoteHead := 7 } 5 ts = .ok (l', .localFastForward) ∧
    Has l'.db.store.rows 65539 xOne (str "say \"hi\"\n") ∧ Has l'.db.store.rows 65540 65540 (.double (3 * 2 ^ 1073))) ∧
    PartOk ⟨some bootDb.parts, 65540, 65540, .double (3 * 2 ^ 1073), TX0 + 2, true⟩ := by
  constructor
  · obtain ⟨r, up', rem, ts, l', h1, h2, h3, h4, h5⟩ := wired_spec (txs := plainTxs) (p := fun _ l' =>
      hasB l'.db 65539 xOne (str "say \"hi\"\n") && hasB l'.db 65540 65540 (.double (3 * 2 ^ 1073))) (by decide +kernel)
    rw [Bool.and_eq_true, hasB_iff, hasB_iff] at h5
    exact ⟨r, up', rem, ts, l', h1, h2, h3, h4, h5.1, h5.2⟩
  · refine ⟨by decide, by decide, ⟨?_, by decide +kernel⟩, by decide, fun m h => ?_⟩
    · exact ⟨3, 1073, by decide +kernel, by decide +kernel, by decide +kernel⟩
    · cases h
      refine ⟨⟨?_, ?_, ?_⟩, ⟨?_, ?_, ?_⟩, ?_, ?_, ?_⟩ <;> decide

end Mentat.Wire
