import Verif.Props.Sync
import Verif.Props.EntitiesKnown
import Verif.Props.Allocation
/- C58, what a remote gives back, and C60: entids after fast-forwarding. -/
namespace Mentat.Sync

/-! ### C58: downloading what was uploaded -/

/-- The uploader has made up to `u.made` UUIDs, on top of what the remote had. -/
structure Fresh (gen : Nat → Nat) (r : Remote) (u : Uploader) : Prop where
  ids : (u.remote.chunks.map (·.1)).Nodup
  origin : ∀ c ∈ u.remote.chunks, c ∈ r.chunks ∨ ∃ k, k < u.made ∧ c.1 = gen k
  map : OneToOne u.tempUuids
  uuids : ∀ p ∈ (u.tempUuids : TxMap), ∃ k, k < u.made ∧ p.2 = gen k

theorem mem_putChunks {gen : Nat → Nat} {c} : ∀ (ds : List TxPart) (n : Nat), c ∈ putChunks gen ds n →
    ∃ k, n ≤ k ∧ k < n + ds.length ∧ c.1 = gen k := by
  intro ds
  induction ds with
  | nil => intro n h; cases h
  | cons d r ih =>
    intro n h
    rcases List.mem_cons.1 h with rfl | h
    · exact ⟨n, Nat.le_refl _, by simp, rfl⟩
    · obtain ⟨k, h1, h2, h3⟩ := ih (n + 1) h
      exact ⟨k, by omega, by simp only [List.length_cons]; omega, h3⟩

theorem nodup_putChunks {gen : Nat → Nat} (hg : ∀ m n, gen m = gen n → m = n) : ∀ (ds : List TxPart) (n : Nat),
    ((putChunks gen ds n).map (·.1)).Nodup := by
  intro ds
  induction ds with
  | nil => intro n; exact List.nodup_nil
  | cons d r ih =>
    intro n
    simp only [putChunks, List.map_cons, List.nodup_cons]
    refine ⟨?_, ih _⟩
    intro h
    obtain ⟨c, hc, he⟩ := List.mem_map.1 h
    obtain ⟨k, h1, -, h3⟩ := mem_putChunks r (n + 1) hc
    have := hg _ _ (he ▸ h3)
    omega

theorem insert_fresh {m : TxMap} {t : Entid} {v : Nat} (h : ∀ u, (t, u) ∉ m) :
    AMap.insert (m : AMap Entid Nat) t v = m ++ [(t, v)] := by
  induction m with
  | nil => rfl
  | cons p r ih =>
    obtain ⟨k, w⟩ := p
    have hk : ¬ k = t := by rintro rfl; exact h w (by simp)
    rw [AMap.insert, if_neg hk, ih fun u hu => h u (List.mem_cons_of_mem _ hu)]
    rfl

theorem Fresh.tx {gen rh parts r u t ds u'} (hg : ∀ m n : Nat, gen m = gen n → m = n)
    (hr : ∀ c ∈ r.chunks, ∀ n, gen n ≠ c.1) (ht : AMap.get u.tempUuids t = none) (hf : Fresh gen r u)
    (h : Uploader.tx gen rh parts u t ds = .ok u') : Fresh gen r u' := by
  cases ds with
  | nil => simp [Uploader.tx] at h
  | cons d ds =>
    simp only [Uploader.tx] at h
    cases hp : allocateParts (List.map (fun x => x.e) (d :: ds)) parts with
    | err e => rw [hp] at h; simp [Res.bind] at h
    | panic => rw [hp] at h; simp [Res.bind] at h
    | ok p =>
      rw [hp] at h
      simp only [Res.bind, Res.ok.injEq] at h
      subst h
      have hnew : ∀ c ∈ putChunks gen ({ d with partitions := some p } :: ds) (u.made + 1),
          ∃ k, u.made + 1 ≤ k ∧ k < u.made + 1 + (ds.length + 1) ∧ c.1 = gen k := by
        intro c hc
        obtain ⟨k, h1, h2, h3⟩ := mem_putChunks _ _ hc
        exact ⟨k, h1, by simpa using h2, h3⟩
      have hnot : ∀ w, (t, w) ∉ (u.tempUuids : TxMap) := by
        intro w hw
        have := AMap.get_isSome_iff.2 (List.mem_map.2 ⟨_, hw, rfl⟩ : t ∈ AMap.keys u.tempUuids)
        rw [ht] at this; cases this
      refine ⟨?_, ?_, ?_, ?_⟩
      · simp only [List.map_append]
        rw [List.nodup_append]
        refine ⟨hf.ids, nodup_putChunks hg _ _, ?_⟩
        intro a ha b hb he
        subst he
        obtain ⟨c, hc, rfl⟩ := List.mem_map.1 ha
        obtain ⟨c', hc', he⟩ := List.mem_map.1 hb
        obtain ⟨k, k1, -, k3⟩ := hnew c' hc'
        rcases hf.origin c hc with h1 | ⟨j, j1, j2⟩
        · exact hr c h1 k (by rw [← k3, he])
        · have := hg k j (by rw [← k3, ← j2, he])
          omega
      · intro c hc
        rcases List.mem_append.1 hc with hc | hc
        · rcases hf.origin c hc with h1 | ⟨j, j1, j2⟩
          · exact Or.inl h1
          · exact Or.inr ⟨j, by simp only; omega, j2⟩
        · obtain ⟨k, -, k2, k3⟩ := hnew c hc
          exact Or.inr ⟨k, by simpa using k2, k3⟩
      · simp only
        rw [insert_fresh hnot]
        unfold OneToOne
        rw [List.pairwise_append]
        refine ⟨hf.map, by simp, ?_⟩
        intro a ha b hb
        simp only [List.mem_singleton] at hb
        subst hb
        refine ⟨?_, ?_⟩
        · rintro he; obtain ⟨x, y⟩ := a; simp only at he; subst he; exact hnot y ha
        · intro he
          obtain ⟨k, k1, k2⟩ := hf.uuids a ha
          have := hg k u.made (by rw [← k2, he])
          omega
      · simp only
        rw [insert_fresh hnot]
        intro q hq
        rcases List.mem_append.1 hq with hq | hq
        · obtain ⟨k, k1, k2⟩ := hf.uuids q hq
          exact ⟨k, by omega, k2⟩
        · simp only [List.mem_singleton] at hq
          subst hq
          exact ⟨u.made, by simp only [List.length_cons]; omega, rfl⟩

theorem Fresh.visit {gen rh parts r log} (hg : ∀ m n : Nat, gen m = gen n → m = n)
    (hr : ∀ c ∈ r.chunks, ∀ n, gen n ≠ c.1) : ∀ (ts : List Entid) (u u' : Uploader), ts.Nodup →
    (∀ t ∈ ts, AMap.get u.tempUuids t = none) → Fresh gen r u →
    visit (Uploader.tx gen rh parts) log ts u = .ok u' → Fresh gen r u' := by
  intro ts
  induction ts with
  | nil =>
    intro u u' _ _ hf h
    simp only [Sync.visit, Res.ok.injEq] at h
    subst h; exact hf
  | cons t rest ih =>
    intro u u' hn ht hf h
    rw [List.nodup_cons] at hn
    simp only [Sync.visit] at h
    cases h1 : Uploader.tx gen rh parts u t (datomsOfTx log t) with
    | err e => rw [h1] at h; simp [Res.bind] at h
    | panic => rw [h1] at h; simp [Res.bind] at h
    | ok u1 =>
      rw [h1] at h
      simp only [Res.bind] at h
      obtain ⟨x, -, -, -, hx4, -⟩ := Uploader.tx_ok h1
      refine ih u1 u' hn.2 ?_ (hf.tx hg hr (ht t (by simp)) h1) h
      intro t' ht'
      rw [hx4, AMap.get_insert_ne _ _ (by rintro rfl; exact hn.1 ht')]
      exact ht t' (List.mem_cons_of_mem _ ht')

/-- The same datom, whatever its partition map. -/
def SameDatom (d d' : TxPart) : Prop := d'.e = d.e ∧ d'.a = d.a ∧ d'.v = d.v ∧ d'.tx = d.tx ∧ d'.added = d.added

theorem chunk_of_nodup {r : Remote} (h : (r.chunks.map (·.1)).Nodup) {c d} (hm : (c, d) ∈ r.chunks) :
    r.chunk c = .ok d := by
  unfold Remote.chunk
  have : r.chunks.find? (fun x => decide (x.1 = c)) = some (c, d) := by
    revert h hm
    generalize r.chunks = l
    intro h hm
    induction l with
    | nil => cases hm
    | cons p l ih =>
      simp only [List.map_cons, List.nodup_cons] at h
      rcases List.mem_cons.1 hm with rfl | hm
      · simp
      · have hne : ¬ p.1 = c := by
          intro he; apply h.1; rw [he]; exact List.mem_map.2 ⟨_, hm, rfl⟩
        rw [List.find?_cons_of_neg (by simpa using hne)]
        exact ih h.2 hm
  rw [this]

theorem parts_of_carries {parts : Parts} {r : Remote} (h : (r.chunks.map (·.1)).Nodup) : ∀ (cs : List Nat) (ds : List TxPart),
    cs.length = ds.length →
    (∀ (i : Nat) c d, cs[i]? = some c → ds[i]? = some d →
      ∃ p, (c, { d with partitions := p }) ∈ r.chunks ∧
        (i = 0 → ∃ q, p = some q ∧ allocateParts (ds.map (·.e)) parts = .ok q)) →
    ∃ ds', r.parts cs = .ok ds' ∧ List.Forall₂ SameDatom ds ds' ∧
      ∀ d ∈ ds'.head?, ∃ q, d.partitions = some q ∧ allocateParts (ds.map (·.e)) parts = .ok q := by
  have key : ∀ (cs : List Nat) (ds : List TxPart), cs.length = ds.length →
      (∀ (i : Nat) c d, cs[i]? = some c → ds[i]? = some d →
        ∃ p, (c, { d with partitions := p }) ∈ r.chunks) →
      ∃ ds', r.parts cs = .ok ds' ∧ List.Forall₂ SameDatom ds ds' := by
    intro cs
    induction cs with
    | nil =>
      intro ds hl _
      have : ds = [] := List.length_eq_zero_iff.1 hl.symm
      subst this
      exact ⟨[], rfl, .nil⟩
    | cons c cs ih =>
      intro ds hl hc
      cases ds with
      | nil => simp at hl
      | cons d ds =>
        obtain ⟨p, hp⟩ := hc 0 c d (by simp) (by simp)
        obtain ⟨ds', h1, h2⟩ := ih ds (by simpa using hl) (fun i c d h1 h2 => hc (i + 1) c d (by simpa) (by simpa))
        refine ⟨{ d with partitions := p } :: ds', ?_, .cons ⟨rfl, rfl, rfl, rfl, rfl⟩ h2⟩
        simp [Remote.parts, chunk_of_nodup h hp, h1, Res.bind]
  intro cs ds hl hc
  obtain ⟨ds', h1, h2⟩ := key cs ds hl fun i c d h1 h2 => (hc i c d h1 h2).imp fun _ h => h.1
  refine ⟨ds', h1, h2, ?_⟩
  cases cs with
  | nil =>
    simp only [Remote.parts, Res.ok.injEq] at h1
    subst h1; simp
  | cons c cs =>
    cases ds with
    | nil => simp at hl
    | cons d ds =>
      obtain ⟨p, hp, h0⟩ := hc 0 c d (by simp) (by simp)
      simp only [Remote.parts, chunk_of_nodup h hp, Res.bind] at h1
      cases h3 : r.parts cs with
      | err e => rw [h3] at h1; simp at h1
      | panic => rw [h3] at h1; simp at h1
      | ok l =>
        rw [h3] at h1
        simp only [Res.ok.injEq] at h1
        subst h1
        intro d' hd'
        simp only [List.head?_cons, Option.mem_def, Option.some.injEq] at hd'
        subst hd'
        exact h0 rfl

theorem mem_setAll {l m : TxMap} (hl : OneToOne l) {t : Entid} {v : Nat} (h : (t, v) ∈ l) :
    (t, v) ∈ m.setAll l := by
  have keep : ∀ (l : TxMap) (m : TxMap), (t, v) ∈ m → (∀ q ∈ l, (q : Entid × Nat).1 ≠ t ∧ q.2 ≠ v) → (t, v) ∈ m.setAll l := by
    intro l
    induction l with
    | nil => intro m hm _; exact hm
    | cons q r ih =>
      intro m hm hq
      have h1 := hq q (by simp)
      exact ih _ (mem_set.2 (Or.inr ⟨Ne.symm h1.1, Ne.symm h1.2, hm⟩)) fun q' hq' => hq q' (List.mem_cons_of_mem _ hq')
  induction l generalizing m with
  | nil => cases h
  | cons p r ih =>
    have hl' := List.pairwise_cons.1 hl
    rcases List.mem_cons.1 h with rfl | h
    · exact keep r _ (mem_set.2 (Or.inl ⟨rfl, rfl⟩)) fun q hq => ⟨Ne.symm (hl'.1 q hq).1, Ne.symm (hl'.1 q hq).2⟩
    · exact ih hl'.2 h

/-- C58: the transaction UUIDs and chunk ids being distinct and new, downloading an uploaded
transaction gives the datoms of the local one, in order, the first with the partition map of their
entities; and the local transaction is mapped to its UUID. -/
theorem C58_download {gen : Nat → Nat} {l : Local} {fromTx : Option Entid} {r r' : Remote} {l' : Local}
    {rh : Nat} (hg : ∀ m n, gen m = gen n → m = n) (hc : ∀ c ∈ r.chunks, ∀ n, gen n ≠ c.1)
    (hd : (r.chunks.map (·.1)).Nodup) (hm : OneToOne l.map)
    (h : fastForwardRemote gen l fromTx r rh = .ok (l', r')) :
    ∃ (ts : List Entid) (new : List RemoteTx), ts.Pairwise (· < ·) ∧
      (∀ t, t ∈ ts ↔ After fromTx t ∧ ∃ row ∈ l.db.store.log, row.timeline = 0 ∧ row.tx = t) ∧
      r'.txs = r.txs ++ new ∧
      List.Forall₂ (fun t x => l'.map.get t = .ok (some x.uuid) ∧
        ∃ ds, r'.parts x.chunks = .ok ds ∧ List.Forall₂ SameDatom (datomsOfTx l.db.store.log t) ds ∧
          ∀ d ∈ ds.head?, ∃ q, d.partitions = some q ∧
            allocateParts ((datomsOfTx l.db.store.log t).map (·.e)) Parts.bootstrap = .ok q) ts new := by
  unfold fastForwardRemote at h
  obtain ⟨ts, t1, t2, t3⟩ := C57_process l.db.store.log fromTx
  rw [t3] at h
  cases hv : visit (Uploader.tx gen rh Parts.bootstrap) l.db.store.log ts { remote := r } with
  | err e => rw [hv] at h; simp [Res.bind] at h
  | panic => rw [hv] at h; simp [Res.bind] at h
  | ok u =>
    rw [hv] at h
    simp only [Res.bind] at h
    have hnd : ts.Nodup := t1.imp (fun h => by omega)
    obtain ⟨new, n1, n2, n3, n4, n5, n6, n7, -⟩ := visit_upload ts _ _ hnd hv
    have hf := Fresh.visit hg hc ts { remote := r } u hnd (by simp)
      ⟨hd, fun c hc => Or.inl hc, by simp [OneToOne], by simp⟩ hv
    refine ⟨ts, new, t1, t2, ?_⟩
    have hall : ∀ (i : Nat) x t, new[i]? = some x → ts[i]? = some t →
        (t, x.uuid) ∈ (u.tempUuids : TxMap) ∧ ∃ ds, u.remote.parts x.chunks = .ok ds ∧
          List.Forall₂ SameDatom (datomsOfTx l.db.store.log t) ds ∧ ∀ d ∈ ds.head?, ∃ q, d.partitions = some q ∧
            allocateParts ((datomsOfTx l.db.store.log t).map (·.e)) Parts.bootstrap = .ok q := by
      intro i x t h1 h2
      obtain ⟨h3, h4⟩ := n7 i x t h1 h2
      exact ⟨AMap.get_some_mem h3, parts_of_carries hf.ids _ _ h4.1 h4.2⟩
    have h2of : ∀ (R : Entid → RemoteTx → Prop) (ts : List Entid) (new : List RemoteTx),
        new.length = ts.length →
        (∀ (i : Nat) x t, new[i]? = some x → ts[i]? = some t → R t x) → List.Forall₂ R ts new := by
      intro R ts
      induction ts with
      | nil =>
        intro new hl _
        have : new = [] := List.length_eq_zero_iff.1 (by simpa using hl)
        subst this; exact .nil
      | cons t ts ih =>
        intro new hl hR
        cases new with
        | nil => simp at hl
        | cons x new =>
          exact .cons (hR 0 x t (by simp) (by simp)) (ih new (by simpa using hl)
            fun i x t h1 h2 => hR (i + 1) x t (by simpa) (by simpa))
    cases hr : u.rolling with
    | none =>
      rw [hr] at h
      simp only [Res.ok.injEq, Prod.mk.injEq] at h
      obtain ⟨rfl, rfl⟩ := h
      have ht := (n3.1 hr).2
      subst ht
      have : new = [] := List.length_eq_zero_iff.1 (by simpa using n6)
      subst this
      exact ⟨n1, .nil⟩
    | some hd' =>
      rw [hr] at h
      simp only [Res.ok.injEq, Prod.mk.injEq] at h
      obtain ⟨rfl, rfl⟩ := h
      refine ⟨n1, h2of _ _ _ n6 ?_⟩
      intro i x t h1 h2
      obtain ⟨h3, ds, h4, h5, h6⟩ := hall i x t h1 h2
      refine ⟨(get_iff (hm.setAll _) _ _).2 (mem_setAll hf.map h3), ds, ?_, h5, h6⟩
      have hsame : ∀ cs, ({ u.remote with head := hd' } : Remote).parts cs = u.remote.parts cs := by
        intro cs
        induction cs with
        | nil => rfl
        | cons c cs ih => simp only [Remote.parts, ih]; rfl
      simp only [hsame, h4]

/-! ### C60 -/

instance (p q : Parts) : Decidable (Widens p q) := by unfold Widens; infer_instance

/-- The partition map of a remote transaction hands out the next local transaction id and covers
every local entid. -/
def CoversStore (db : Db) (p : Parts) : Prop := ∃ q, rewind p = .ok q ∧ Widens db.parts q

/-- Each incoming partition map covers the store it is applied to. -/
def CoversAll (now : Int) : List Tx → Db → Prop
  | [], _ => True
  | tx :: r, db => (∀ d ∈ tx.parts.head?, ∀ p ∈ d.partitions, CoversStore db p) ∧
      ∀ db' id, applyRemote db now tx = .ok (some (db', id)) → CoversAll now r db'

theorem knownReversed_remote (db : Db) (ps : List TxPart) :
    KnownReversed db (flattenAll 0 (ps.map remotePart)).1 := by
  intro op e a v hm hb
  have hflat : ∀ (n : Nat) (l : List TxPart) op e a v,
      TxEntity.addOrRetract op e a v ∈ (flattenAll n (l.map remotePart)).1 → ∃ i, a = .entid i := by
    intro n l
    induction l generalizing n with
    | nil => intro op e a v h; simp [flattenAll] at h
    | cons p l ih =>
      intro op e a v h
      simp only [List.map_cons, remotePart] at h
      rw [flattenAll] at h
      rcases List.mem_append.1 h with h | h
      · simp [flattenEntity, flatten] at h
        exact ⟨p.a, h.2.2.1⟩
      · exact ih _ op e a v h
  obtain ⟨i, rfl⟩ := hflat 0 ps op e a v hm
  simp [Backward] at hb

theorem reach_applyRemotes {now : Int} : ∀ (txs : List Tx) (db : Db) (last) (db' last' cut), Reach db →
    CoversAll now txs db → applyRemotes now txs db last = .ok (db', last', cut) → Reach db' := by
  intro txs
  induction txs with
  | nil =>
    intro db last db' last' cut hr _ h
    simp only [applyRemotes, Res.ok.injEq, Prod.mk.injEq] at h
    rw [← h.1]; exact hr
  | cons tx r ih =>
    intro db last db' last' cut hr hc h
    simp only [applyRemotes] at h
    cases ha : applyRemote db now tx with
    | err e => rw [ha] at h; simp [Res.bind] at h
    | panic => rw [ha] at h; simp [Res.bind] at h
    | ok o =>
      rw [ha] at h
      cases o with
      | none =>
        simp only [Res.bind, Res.ok.injEq, Prod.mk.injEq] at h
        rw [← h.1]; exact hr
      | some x =>
        obtain ⟨db1, id⟩ := x
        simp only [Res.bind] at h
        refine ih db1 _ _ _ _ ?_ (hc.2 db1 id ha) h
        unfold applyRemote at ha
        cases hp : tx.parts with
        | nil => rw [hp] at ha; cases ha
        | cons p ps =>
          rw [hp] at ha
          simp only at ha
          cases hpp : p.partitions with
          | none => rw [hpp] at ha; cases ha
          | some parts =>
            rw [hpp] at ha
            obtain ⟨q, hq, hw⟩ := hc.1 p (by simp [hp]) parts (by simp [hpp])
            simp only [hq, Res.bind] at ha
            cases ht : transactEntities { db with parts := q } now ((p :: ps).map remotePart) with
            | err e => rw [ht] at ha; simp at ha
            | panic => rw [ht] at ha; simp at ha
            | ok y =>
              rw [ht] at ha
              obtain ⟨db2, rep⟩ := y
              simp only [Res.ok.injEq, Option.some.injEq, Prod.mk.injEq] at ha
              rw [← ha.1]
              exact .step (.widen hr hw) (transacts_of_entities (.widen hr hw) (knownReversed_remote _ _) ht)

/-- C60, when each incoming partition map covers the store it is applied to: after fast-forwarding,
the new tempids of a local transaction get entids that no datom or log entry is about, and so does
the transaction.  (Missing: maps that do not, `C60_fails`; entids used only as values, `C09_fails`.) -/
theorem C60_partial {l l' : Local} {now now' : Int} {txs : List Tx} {rp : Report} {db' : Db}
    {terms ids rep} (hr : Reach l.db) (hc : CoversAll now txs l.db)
    (h : fastForwardLocal l now txs = .ok (l', rp)) (ht : transactTerms l'.db now' terms ids = .ok (db', rep)) :
    (∀ x ∈ l'.db.store.log, x.e ≠ rep.txId ∧ x.tx ≠ rep.txId) ∧
    ∃ σ : TempIdMap, (∀ s n, AMap.get rep.tempids s = some n ↔ AMap.get σ (.external s) = some n) ∧
      ∀ t n, AMap.get σ t = some n →
        Upserts l'.db.schema l'.db.store.rows terms t n ∨
        ((∀ x ∈ l'.db.store.log, x.e ≠ n ∧ x.tx ≠ n) ∧ ∀ r ∈ l'.db.store.rows, r.e ≠ n) := by
  refine C09_fresh_partial ?_ ht
  unfold fastForwardLocal at h
  cases ha : applyRemotes now txs l.db none with
  | err e => rw [ha] at h; simp [Res.bind] at h
  | panic => rw [ha] at h; simp [Res.bind] at h
  | ok x =>
    obtain ⟨db1, last, cut⟩ := x
    have := reach_applyRemotes txs l.db none db1 last cut hr hc ha
    rw [ha] at h
    simp only [Res.bind] at h
    cases cut with
    | true => simp only [if_true, Res.ok.injEq, Prod.mk.injEq] at h; rw [← h.1]; exact this
    | false =>
      simp only [Bool.false_eq_true, if_false] at h
      cases last with
      | none => simp only [Res.ok.injEq, Prod.mk.injEq] at h; rw [← h.1]; exact this
      | some y => simp only [Res.ok.injEq, Prod.mk.injEq] at h; rw [← h.1]; exact this

/-- One store makes two entities (65539 and 65540) and then changes the first. -/
def remoteTxs : List Mentat.Tx :=
  [([addT "e" xOne (str "a"), addT "f" xOne (str "b")], [tid "e", tid "f"]), ([addE 65539 xOne (str "c")], [])]

/-- Upload what `a` has after `setupDb` and download it to `b`. -/
def viaRemote (a b : Db) : Res Db :=
  (fastForwardRemote (fun n => n + 8) { db := a } (some (TX0 + 1)) { head := 7, txs := [⟨7, 0, []⟩] } 7).bind
    fun (_, r) =>
  (r.after 7).bind fun txs =>
  (fastForwardLocal { db := b, remoteHead := 7 } 0 txs).bind fun (l, _) => .ok l.db

/-- The full C60 fails: the partition map sent with a transaction covers the entids of that
transaction only (the uploader starts from `tolstoy_parts`, which nothing updates), so a later
transaction about an earlier entity takes the map back, and the next local tempid gets the entid of
another entity in the store. -/
theorem C60_fails : ∃ a b db' rep, Reach a ∧ viaRemote a setupDb = .ok b ∧
    Has b.store.rows 65540 xOne (str "b") ∧
    transactTerms b 0 [addT "new" xMany (.long 5)] [tid "new"] = .ok (db', rep) ∧
    AMap.get rep.tempids "new".toList = some 65540 := by
  obtain ⟨a, h, hp⟩ := reach_of_setup (txs := remoteTxs) (p := fun a =>
    match viaRemote a setupDb with
    | .ok b => hasB b 65540 xOne (str "b") &&
      match transactTerms b 0 [addT "new" xMany (.long 5)] [tid "new"] with
      | .ok (_, rep) => decide (AMap.get rep.tempids "new".toList = some 65540)
      | _ => false
    | _ => false) (by decide +kernel)
  split at hp
  · rename_i b hb
    simp only [Bool.and_eq_true, hasB_iff] at hp
    obtain ⟨hh, hp⟩ := hp
    split at hp
    · rename_i db' rep ht
      exact ⟨a, b, db', rep, h, hb, hh, ht, by simpa using hp⟩
    · cases hp
  · cases hp

/-- A decidable form of `CoversAll`. -/
def coversB (now : Int) : List Tx → Db → Bool
  | [], _ => true
  | tx :: r, db => (match tx.parts with
      | [] => true
      | d :: _ => match d.partitions with
        | none => true
        | some p => match rewind p with
          | .ok q => decide (Widens db.parts q)
          | _ => false) &&
      match applyRemote db now tx with
      | .ok (some (db', _)) => coversB now r db'
      | _ => true

theorem coversB_iff {now} : ∀ (txs : List Tx) (db : Db), coversB now txs db = true → CoversAll now txs db := by
  intro txs
  induction txs with
  | nil => intro db _; trivial
  | cons tx r ih =>
    intro db h
    rw [coversB, Bool.and_eq_true] at h
    refine ⟨?_, ?_⟩
    · intro d hd p hp
      cases hx : tx.parts with
      | nil => simp [hx] at hd
      | cons d' ds =>
        have hd' : d' = d := by simpa [hx] using hd
        subst hd'
        have hp' : d'.partitions = some p := by simpa using hp
        have h1 := h.1
        simp only [hx, hp'] at h1
        cases hq : rewind p with
        | ok q => rw [hq] at h1; exact ⟨q, hq, by simpa using h1⟩
        | err e => rw [hq] at h1; cases h1
        | panic => rw [hq] at h1; cases h1
    · intro db' id ha
      have h2 := h.2
      simp only [ha] at h2
      exact ih db' h2

/-- The hypotheses of `C60_partial` hold when the second transaction is about a new entity. -/
theorem C60_example : ∃ a r txs l rp, Reach a ∧
    fastForwardRemote (fun n => n + 8) { db := a } (some (TX0 + 1)) { head := 7, txs := [⟨7, 0, []⟩] } 7 = .ok r ∧
    r.2.after 7 = .ok txs ∧ txs.length = 2 ∧ CoversAll 0 txs setupDb ∧
    fastForwardLocal { db := setupDb, remoteHead := 7 } 0 txs = .ok (l, rp) ∧
    Has l.db.store.rows 65540 xOne (str "b") := by
  obtain ⟨a, h, hp⟩ := reach_of_setup (txs := [dataTx, ([addT "f" xOne (str "b")], [tid "f"])]) (p := fun a =>
    match fastForwardRemote (fun n => n + 8) { db := a } (some (TX0 + 1)) { head := 7, txs := [⟨7, 0, []⟩] } 7 with
    | .ok r => match r.2.after 7 with
      | .ok txs => decide (txs.length = 2) && coversB 0 txs setupDb &&
        match fastForwardLocal { db := setupDb, remoteHead := 7 } 0 txs with
        | .ok (l, _) => hasB l.db 65540 xOne (str "b")
        | _ => false
      | _ => false
    | _ => false) (by decide +kernel)
  split at hp
  · rename_i r hr
    split at hp
    · rename_i txs ht
      simp only [Bool.and_eq_true, decide_eq_true_eq] at hp
      obtain ⟨⟨h1, h2⟩, h3⟩ := hp
      split at h3
      · rename_i l rp hl
        exact ⟨a, r, txs, l, rp, h, hr, ht, h1, coversB_iff _ _ h2, hl, hasB_iff.1 h3⟩
      · cases h3
    · cases hp
  · cases hp

end Mentat.Sync
