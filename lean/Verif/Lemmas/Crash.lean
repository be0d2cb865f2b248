import Verif.Spec.Crash
import Verif.Spec.History
import Verif.Props.Codec
import Verif.Props.Phase
import Verif.Lemmas.Chain
import Verif.Lemmas.Lost
import Verif.Lemmas.Save
import Mathlib.Tactic.ByContra
/-! # Lemmas on interrupted writes -/
namespace Verif.History
open VarInt FileName FileHistory Phase Codec Compaction

/-! ## Directories of bytes -/

theorem bread_write (d : BDir) (n c m : Bytes) : (d.write n c).read m = if n = m then some c else d.read m := by
  induction d with
  | nil => simp [BDir.write, BDir.read]
  | cons e d ih =>
    obtain ⟨k, g⟩ := e
    rw [BDir.write]
    split
    · rename_i h
      subst h
      rw [BDir.read, BDir.read]
      split <;> rfl
    · rename_i h
      rw [BDir.read, BDir.read, ih]
      split
      · rename_i h2
        subst h2
        rw [if_neg (Ne.symm h)]
      · rfl

theorem bwrite_names (d : BDir) (n c : Bytes) :
    (d.write n c).map (·.1) = if n ∈ d.map (·.1) then d.map (·.1) else d.map (·.1) ++ [n] := by
  induction d with
  | nil => rfl
  | cons e d ih =>
    obtain ⟨k, g⟩ := e
    rw [BDir.write]
    split
    · rename_i h; subst h; simp
    · rename_i h
      simp only [List.map_cons, ih, List.mem_cons]
      by_cases h2 : n ∈ d.map (·.1)
      · rw [if_pos h2, if_pos (Or.inr h2)]
      · rw [if_neg h2, if_neg (by simp [Ne.symm h, h2])]; rfl

theorem bread_mem (d : BDir) (hn : (d.map (·.1)).Nodup) (n c : Bytes) : d.read n = some c ↔ (n, c) ∈ d := by
  induction d with
  | nil => simp [BDir.read]
  | cons e d ih =>
    obtain ⟨k, g⟩ := e
    rw [List.map_cons, List.nodup_cons] at hn
    rw [BDir.read]
    split
    · rename_i h
      subst h
      simp only [Option.some.injEq, List.mem_cons, Prod.mk.injEq, true_and]
      constructor
      · intro h; exact Or.inl h.symm
      · rintro (h | h)
        · exact h.symm
        · exact absurd (List.mem_map_of_mem h) hn.1
    · rename_i h
      rw [ih hn.2]
      simp [Ne.symm h]

theorem bread_perm (d d' : BDir) (hp : d'.Perm d) (hn : (d.map (·.1)).Nodup) (n : Bytes) : d'.read n = d.read n := by
  have hn' : (d'.map (·.1)).Nodup := (hp.map _).nodup_iff.2 hn
  have : ∀ c, d'.read n = some c ↔ d.read n = some c := by
    intro c
    rw [bread_mem d' hn', bread_mem d hn]
    exact hp.mem_iff
  cases h : d.read n with
  | none =>
    cases h' : d'.read n with
    | none => rfl
    | some c => rw [(this c).1 h'] at h; cases h
  | some c => exact (this c).2 h

/-! ## Files -/

section
variable {S : Type}

/-- What a diff of `k` looks like. -/
def IsDiff (k : KOps S) (d : Bytes) : Prop := ∃ a b, k.ops.diff a b = .ok d

theorem isDiff_vals {k : KOps S} (hk : k.Lawful) {d : Bytes} (h : IsDiff k d) :
    ∃ v, encodeVals v = .ok d ∧ (∀ x ∈ v, Valid x) ∧ v.length < 2 ^ 63 ∧ d.length < 2 ^ 63 := by
  obtain ⟨a, b, h⟩ := h
  obtain ⟨v, h1, h2⟩ := bind_ok_inv _ _ _ h
  obtain ⟨l1, l2, l3, _⟩ := hk a b v h1
  exact ⟨v, h2, l1, l2, l3 d h2⟩

theorem KOps.Lawful.ops {k : KOps S} (hk : k.Lawful) : k.ops.Lawful := by
  intro a b d h
  obtain ⟨v, h1, h2⟩ := bind_ok_inv _ _ _ h
  obtain ⟨l1, l2, l3, l4⟩ := hk a b v h1
  have := decode_encodeVals v l1 l2 d h2 (l3 d h2) []
  rw [List.append_nil] at this
  simp only [KOps.ops]
  rw [this]
  exact l4

/-- A complete file is read back. -/
theorem file_whole {f : File} (hf : FileOk f) {c : Bytes} (hc : phaseFile f.1 f.2 = .ok c) :
    readPhaseFile c = .ok f ∧ ∃ v, decodeVals c = .ok (v, f.2) := by
  obtain ⟨h1, h2, h3⟩ := hf
  obtain ⟨head, g1, g2⟩ := C48_statistics_survive f.1 h1 h2 f.2
  rw [g1] at hc
  cases hc
  have := h3 _ g1
  rw [List.length_append] at this
  have hr := g2 (by omega)
  refine ⟨hr, ?_⟩
  unfold readPhaseFile at hr
  obtain ⟨x, hx, hy⟩ := bind_ok_inv _ _ _ hr
  obtain ⟨v, rest⟩ := x
  simp only at hy
  cases hd : Data.decode v with
  | ok d => rw [hd] at hy; cases hy; exact ⟨v, hx⟩
  | err => rw [hd] at hy; cases hy
  | panic => rw [hd] at hy; cases hy

/-- An incomplete file: its head cannot be read, or its diff cannot be. -/
theorem file_torn {k : KOps S} (hk : k.Lawful) {f : File} (hf : FileOk f) (hd : IsDiff k f.2) {c : Bytes}
    (hc : phaseFile f.1 f.2 = .ok c) (n : Nat) (hn : n < c.length) :
    decodeVals (c.take n) = .err ∨ ∃ v d, decodeVals (c.take n) = .ok (v, d) ∧ decodeVals d = .err := by
  obtain ⟨h1, h2, h3⟩ := hf
  have hv : ∀ x ∈ f.1.encode, Valid x := by
    intro x hx
    obtain ⟨n, rfl⟩ := f.1.encode_mem x hx
    exact valid_compInt _ (inI64_wrap n)
  obtain ⟨head, hh⟩ := encodeVals_ok_of_valid _ hv
  have hc' := hc
  unfold phaseFile at hc
  rw [hh] at hc
  cases hc
  have hlen := h3 _ hc'
  rw [List.length_append] at hlen hn
  have hl : f.1.encode.length < 2 ^ 63 := by rw [Data.encode_length]; omega
  rw [List.take_append]
  by_cases hcut : n < head.length
  · left
    have : n - head.length = 0 := by omega
    rw [this, List.take_zero, List.append_nil]
    exact C03_truncation_rejected _ hv hl head hh (by omega) n hcut
  · right
    rw [List.take_of_length_le (by omega)]
    refine ⟨_, _, decode_encodeVals _ hv hl head hh (by omega) _, ?_⟩
    obtain ⟨v, e1, e2, e3, e4⟩ := isDiff_vals hk hd
    exact C03_truncation_rejected v e2 e3 f.2 e1 e4 _ (by omega)

/-- A chain with an incomplete file cannot be composed. -/
theorem bcompose_torn {k : KOps S} {dir : BDir} {q : Props} {c : Bytes} (hq : dir.read q.filename = some c)
    (ht : decodeVals c = .err ∨ ∃ v d, decodeVals c = .ok (v, d) ∧ decodeVals d = .err) (rest : List Props) (s : S) :
    bcompose k.ops dir (q :: rest) s = .err := by
  rw [bcompose, hq]
  simp only
  rcases ht with ht | ⟨v, d, h1, h2⟩
  · rw [ht]; rfl
  · rw [h1]
    simp only [Res.bind_ok, KOps.ops, h2, Res.bind_err]

theorem bcompose_append (ops : Ops S) (dir : BDir) (l m : List Props) (s : S) :
    bcompose ops dir (l ++ m) s = (bcompose ops dir l s).bind (bcompose ops dir m) := by
  induction l generalizing s with
  | nil => rfl
  | cons p l ih =>
    rw [List.cons_append, bcompose, bcompose]
    split
    · rfl
    · cases decodeVals _ with
      | err => rfl
      | panic => rfl
      | ok r =>
        simp only [Res.bind_ok]
        cases ops.app s r.2 with
        | err => rfl
        | panic => rfl
        | ok s' => simp only [Res.bind_ok]; exact ih s'

/-! ## The two models of saving -/

theorem save_plan (o : Opts) (shift : Shift) (ops : Ops S) (st : St) (rid : Nat) (tag : Option Bytes) (s : S) :
    save o shift ops st rid tag s =
      match plan o shift ops (st.dir.map (·.1)) st.base
          (fun n => match st.dir.read n with | none => .err | some f => .ok f.1)
          (fun l => compose ops st.dir l ops.src) rid tag s with
      | .ok (name, f, r) => (⟨st.dir.write name f, match r with | .ok p => some (rid, p) | _ => st.base⟩, r)
      | .err => (st, .err)
      | .panic => (st, .panic) := by
  unfold save plan
  have hbase : st.baseFor rid = baseFor st.base rid := rfl
  have hhist : st.history = createHistory (st.dir.map (·.1)) .empty := rfl
  rw [hhist, hbase]
  cases createHistory (st.dir.map (·.1)) .empty with
  | err => rfl
  | panic => rfl
  | ok h =>
    simp only [Res.bind_ok]
    have hnew : saveNew ops st h rid tag s =
        match planNew ops tag (newControl h) s (fun l => compose ops st.dir l ops.src) with
        | .ok (name, f, r) => (⟨st.dir.write name f, match r with | .ok p => some (rid, p) | _ => st.base⟩, r)
        | .err => (st, .err)
        | .panic => (st, .panic) := by
      unfold saveNew planNew writePhase0
      simp only [compose, Res.bind_ok]
      cases ops.diff ops.src s with
      | err => rfl
      | panic => rfl
      | ok d =>
        simp only [Res.bind_ok]
        cases (analyze (calcFilename tag (newControl h) none [0])).bind
            (fun | some p => Res.ok p | none => Res.err) with
        | ok p => rfl
        | err => rfl
        | panic => rfl
    cases hb : baseFor st.base rid with
    | none => simp only; exact hnew
    | some b =>
      cases hn : h.newest with
      | none => simp only; exact hnew
      | some newest =>
        simp only
        unfold saveDerived
        cases fromFile o h b newest with
        | none => rfl
        | some f =>
          simp only
          unfold deriveImpl planDerive
          rw [hn]
          simp only
          cases st.dir.read f.filename with
          | none => rfl
          | some file =>
            simp only [Res.bind_ok]
            cases calcNextPhase o shift file.1 with
            | err => rfl
            | panic => rfl
            | ok next =>
              simp only [Res.bind_ok]
              cases ancestorsRev h f o.maxPhase o.cumulative.isSome with
              | err => rfl
              | panic => rfl
              | ok rev =>
                simp only [Res.bind_ok]
                cases createDependencies rev.reverse next (if newest = f then newest.control else newest.control + 1) tag
                    o.maxPhase o.cumulative.isSome with
                | err => rfl
                | panic => rfl
                | ok dp =>
                  simp only [Res.bind_ok]
                  cases compose ops st.dir dp.1 ops.src with
                  | err => rfl
                  | panic => rfl
                  | ok c =>
                    simp only [Res.bind_ok]
                    cases ops.diff c s <;> rfl

/-! ## The run without interruptions -/

/-- A directory with incomplete files beside the directory in which all files were written completely. -/
structure Sim (o : Opts) (k : KOps S) (bst : BSt) (st : St) (log : List (Props × S)) (torn : List Props) : Prop where
  ideal : Reach o k.ops st log
  names : bst.dir.map (·.1) = st.dir.map (·.1)
  base : bst.base = st.base
  baseok : ∀ r p, st.base = some (r, p) → p ∉ torn
  files : ∀ e ∈ log, ∃ f c, st.dir.read e.1.filename = some f ∧ FileOk f ∧ IsDiff k f.2 ∧ phaseFile f.1 f.2 = .ok c ∧
    (e.1 ∉ torn → bst.dir.read e.1.filename = some c) ∧
    (e.1 ∈ torn → ∃ n < c.length, bst.dir.read e.1.filename = some (c.take n))
  logged : ∀ t ∈ torn, ∃ e ∈ log, e.1 = t
  clean : ∀ h, st.history = .ok h → ∀ e ∈ log, ∀ rev,
    ancestorsRev h e.1 o.maxPhase o.cumulative.isSome = .ok rev → ∀ q ∈ rev, q ∈ torn → q = e.1
  top : ∀ t ∈ torn, ∀ e ∈ log, e.1.control = t.control → e.1 = t ∨ key e.1 < key t

variable {o : Opts} {k : KOps S} {bst : BSt} {st : St} {log : List (Props × S)} {torn : List Props}

theorem Sim.history (hs : Sim o k bst st log torn) : bst.history = st.history := by
  unfold BSt.history St.history
  rw [hs.names]

/-- The files of a chain are in the log. -/
theorem chain_logged {h : Hist} (hk : Knows h log) (e : Props × S) (he : e ∈ log) (m : Nat) (cu : Bool) (rev : List Props)
    (hr : ancestorsRev h e.1 m cu = .ok rev) (q : Props) (hq : q ∈ rev) : ∃ e ∈ log, e.1 = q := by
  obtain ⟨r, rfl, h1⟩ := ancestorsRev_shape _ _ _ _ _ hr
  rcases List.mem_cons.1 hq with rfl | hq
  · exact ⟨e, he, rfl⟩
  · obtain ⟨c, ord, h2⟩ := h1 q hq
    exact ((hk.2 _ _ _).1 h2).1

theorem Sim.comp (hs : Sim o k bst st log torn) (l : List Props) (hl : ∀ q ∈ l, (∃ e ∈ log, e.1 = q) ∧ q ∉ torn) (s : S) :
    bcompose k.ops bst.dir l s = compose k.ops st.dir l s := by
  induction l generalizing s with
  | nil => rfl
  | cons q l ih =>
    obtain ⟨⟨e, he, rfl⟩, hq⟩ := hl q (by simp)
    obtain ⟨f, c, h1, h2, h3, h4, h5, _⟩ := hs.files e he
    obtain ⟨_, v, h6⟩ := file_whole h2 h4
    rw [bcompose, compose, h1, h5 hq]
    simp only
    rw [h6]
    simp only [Res.bind_ok]
    congr 1
    funext s'
    exact ih (fun q hq => hl q (by simp [hq])) s'

/-- The file that a save continues is complete. -/
theorem Sim.from_complete (hlaw : k.Lawful) (hs : Sim o k bst st log torn) (h : Hist) (hh : st.history = .ok h) (rid : Nat)
    (b newest f : Props) (hb : st.baseFor rid = some b) (hf : fromFile o h b newest = some f) :
    (∃ e ∈ log, e.1 = f) ∧ f ∉ torn := by
  obtain ⟨h', hh', hk⟩ := hs.ideal.inv.history
  rw [hh] at hh'
  cases hh'
  have hbase : ∃ r, st.base = some (r, b) := by
    unfold St.baseFor at hb
    split at hb
    · rename_i r q hq
      split at hb
      · cases hb; exact ⟨r, hq⟩
      · cases hb
    · cases hb
  obtain ⟨r, hbase⟩ := hbase
  have hbt := hs.baseok r b hbase
  obtain ⟨eb, heb, rfl⟩ := hs.ideal.inv.base r b hbase
  refine ⟨fromFile_mem h hk eb.1 newest f ⟨eb, heb, rfl⟩ hf, ?_⟩
  unfold fromFile at hf
  split at hf
  · rename_i hph
    intro hft
    obtain ⟨⟨ef, hef, rfl⟩, hkey⟩ := (hk.2 _ _ _).1 hf
    obtain ⟨_, hne, _⟩ := hs.ideal.inv.small eb heb
    obtain ⟨_, hfne, _⟩ := hs.ideal.inv.small ef hef
    have h2 : 2 ≤ eb.1.order.length := by
      have h9 := congrArg List.length hkey
      simp only [key, orderBase, List.length_cons, List.length_dropLast] at h9
      have : ef.1.order.length ≠ 0 := by simpa using hfne
      omega
    have hphase : eb.1.order.length - 1 = o.maxPhase := by
      have := hph.1
      unfold phase at this
      exact this
    rcases hs.ideal.loads hlaw.ops h hh eb heb with ⟨rev, hrev, _⟩ | hlost
    · by_cases hc : (eb.1.order.length - 1 = o.maxPhase ∧ o.cumulative.isSome = true) ∧ orderLast eb.1 ≠ 0
      · obtain ⟨⟨_, hcu⟩, hol⟩ := hc
        rw [hcu, ancestorsRev_cumulative h eb.1 hne _ hphase] at hrev
        obtain ⟨sib, h3, _⟩ := bind_ok_inv _ _ _ hrev
        obtain ⟨j, hj⟩ := Nat.exists_eq_succ_of_ne_zero hol
        rw [hj, siblings] at h3
        cases hq : h.getProps eb.1.prevCtl (orderBase eb.1 ++ [j]) with
        | none => rw [hq] at h3; cases h3
        | some q =>
          obtain ⟨⟨eq, heq, rfl⟩, hqk⟩ := (hk.2 _ _ _).1 hq
          have hlt : key ef.1 < key eq.1 := by
            rw [hkey, hqk, List.cons_lt_cons_iff]
            refine Or.inr ⟨rfl, ?_⟩
            have := lt_append (orderBase eb.1) [] [j] (by simp)
            simpa using this
          have hctl : eq.1.control = ef.1.control := by
            simp only [key, List.cons.injEq] at hqk hkey
            rw [hqk.1, hkey.1]
          rcases hs.top ef.1 hft eq heq hctl with h4 | h4
          · rw [h4] at hlt; exact List.lt_irrefl _ hlt
          · exact List.lt_irrefl _ (List.lt_trans hlt h4)
      · rw [ancestorsRev_plain h eb.1 hne _ _ (by
          by_cases h5 : eb.1.order.length - 1 = o.maxPhase ∧ o.cumulative.isSome = true
          · exact Or.inr (by by_contra h6; exact hc ⟨h5, h6⟩)
          · exact Or.inl h5)] at hrev
        obtain ⟨r2, h3, h4⟩ := bind_ok_inv _ _ _ hrev
        obtain ⟨q, t, h5, h6, h7⟩ := par_cons h (keyed_of_hwf h hk.1) eb.1 h2 r2 h3
        rw [hf] at h5
        cases h5
        have hfb := hs.clean h hh eb heb rev ?_ ef.1 ?_ hft
        · rw [← hfb] at hbt
          exact hbt hft
        · rw [ancestorsRev_plain h eb.1 hne _ _ (by
            by_cases h5 : eb.1.order.length - 1 = o.maxPhase ∧ o.cumulative.isSome = true
            · exact Or.inr (by by_contra h6; exact hc ⟨h5, h6⟩)
            · exact Or.inl h5), h3]
          exact h4
        · cases h4
          rw [h7]
          simp
    · rw [lost_no_parent hs.ideal h hh eb.1 hlost] at hf
      cases hf
  · cases hf
    exact hbt

/-- With incomplete files around, a save plans the same file. -/
theorem Sim.plan_eq (hlaw : k.Lawful) (hs : Sim o k bst st log torn) (shift : Shift) (rid : Nat) (tag : Option Bytes) (s : S) :
    bplan o shift k.ops bst rid tag s = plan o shift k.ops (st.dir.map (·.1)) st.base
          (fun n => match st.dir.read n with | none => .err | some f => .ok f.1)
          (fun l => compose k.ops st.dir l k.ops.src) rid tag s := by
  obtain ⟨h, hh, hk⟩ := hs.ideal.inv.history
  have hh' : createHistory (st.dir.map (·.1)) .empty = .ok h := hh
  unfold bplan plan
  rw [hs.names, hs.base, hh']
  simp only [Res.bind_ok]
  cases hb : baseFor st.base rid with
  | none => rfl
  | some b =>
    cases hn : h.newest with
    | none => rfl
    | some newest =>
      simp only
      cases hf : fromFile o h b newest with
      | none => rfl
      | some f =>
        simp only
        obtain ⟨⟨ef, hef, rfl⟩, hft⟩ := hs.from_complete hlaw h hh rid b newest f hb hf
        obtain ⟨file, c, h1, h2, h3, h4, h5, _⟩ := hs.files ef hef
        unfold planDerive bstat
        rw [hn, h5 hft]
        simp only [h1, (file_whole h2 h4).1, Res.map_ok, Res.bind_ok]
        congr 1
        funext next
        cases hrev : ancestorsRev h ef.1 o.maxPhase o.cumulative.isSome with
        | err => rfl
        | panic => rfl
        | ok rev =>
          simp only [Res.bind_ok]
          cases hc : createDependencies rev.reverse next (if newest = ef.1 then newest.control else newest.control + 1) tag
              o.maxPhase o.cumulative.isSome with
          | err => rfl
          | panic => rfl
          | ok dp =>
            obtain ⟨deps, p⟩ := dp
            simp only [Res.bind_ok]
            have hsub : ∀ q ∈ deps, q ∈ rev := by
              obtain ⟨r, rfl, _⟩ := ancestorsRev_shape _ _ _ _ _ hrev
              obtain ⟨ord, prev, hno, rfl, hdeps⟩ := createDependencies_ok _ ef.1 (by simp) _ _ _ _ _ _ _ hc
              intro q hq
              rw [hdeps] at hq
              split at hq
              · exact List.mem_reverse.1 hq
              · exact List.mem_reverse.1 (List.mem_of_mem_take hq)
            rw [hs.comp deps (fun q hq => ⟨chain_logged hk ef hef _ _ rev hrev q (hsub q hq),
              fun hqt => hft (hs.clean h hh ef hef rev hrev q (hsub q hq) hqt ▸ hqt)⟩)]

/-- The newest file has the highest control number. -/
theorem newest_control {h : Hist} (hk : Knows h log) (hsort : log.Pairwise (fun a b => key b.1 < key a.1)) (np : Props)
    (hn : h.newest = some np) : (∃ e ∈ log, e.1 = np) ∧ ∀ e ∈ log, e.1.control ≤ np.control ∧ (e.1 = np ∨ key e.1 < key np) := by
  rw [hk.newest hsort] at hn
  cases log with
  | nil => simp at hn
  | cons e0 l =>
    simp only [List.head?_cons, Option.map_some, Option.some.injEq] at hn
    subst hn
    refine ⟨⟨e0, by simp, rfl⟩, fun e he => ?_⟩
    rcases List.mem_cons.1 he with rfl | he
    · exact ⟨Nat.le_refl _, Or.inl rfl⟩
    · have := (List.pairwise_cons.1 hsort).1 e he
      refine ⟨?_, Or.inr this⟩
      unfold key at this
      rw [List.cons_lt_cons_iff] at this
      omega

/-- What a save plans, seen from the run without interruptions. -/
theorem Sim.plan_shape (hlaw : k.Lawful) (hs : Sim o k bst st log torn) (hl : log.length < 10 ^ 8 - 1) (shift : Shift) (rid : Nat)
    (s : S) (name : Bytes) (f : File) (r : Res Props) (hp : bplan o shift k.ops bst rid none s = .ok (name, f, r)) :
    ∃ p, r = .ok p ∧ name = p.filename ∧ IsDiff k f.2 ∧
      save o shift k.ops st rid none s = (⟨st.dir.write p.filename f, some (rid, p)⟩, .ok p) ∧
      ∀ t ∈ torn, p.control ≠ t.control := by
  obtain ⟨h, hh, hk⟩ := hs.ideal.inv.history
  have hh' : createHistory (st.dir.map (·.1)) .empty = .ok h := hh
  rw [hs.plan_eq hlaw] at hp
  have hsave := save_plan o shift k.ops st rid none s
  rw [hp] at hsave
  have key : ∃ p, r = .ok p ∧ name = p.filename ∧ IsDiff k f.2 ∧ ∀ t ∈ torn, p.control ≠ t.control := by
    unfold plan at hp
    rw [hh'] at hp
    simp only [Res.bind_ok] at hp
    have hnew : planNew k.ops none (newControl h) s (fun l => compose k.ops st.dir l k.ops.src) = .ok (name, f, r) →
        ∃ p, r = .ok p ∧ name = p.filename ∧ IsDiff k f.2 ∧ ∀ t ∈ torn, p.control ≠ t.control := by
      intro hp
      unfold planNew at hp
      simp only [compose, Res.bind_ok] at hp
      obtain ⟨d, h1, h2⟩ := bind_ok_inv _ _ _ hp
      rw [(start_new_props hs.ideal.inv hl h hk).1] at h2
      simp only [Res.bind_ok, Res.ok.injEq, Prod.mk.injEq] at h2
      obtain ⟨rfl, rfl, rfl⟩ := h2
      refine ⟨_, rfl, ?_, ⟨_, _, h1⟩, ?_⟩
      · simp [Props.filename]
      · intro t ht hc
        obtain ⟨e, he, rfl⟩ := hs.logged t ht
        simp only at hc
        unfold newControl at hc
        cases hn : h.newest with
        | none =>
          rw [hk.newest hs.ideal.inv.sorted] at hn
          cases log with
          | nil => simp at he
          | cons _ _ => simp at hn
        | some np =>
          rw [hn] at hc
          simp only at hc
          have := ((newest_control hk hs.ideal.inv.sorted np hn).2 e he).1
          omega
    split at hp
    · rename_i b newest hb hn
      cases hf : fromFile o h b newest with
      | none => rw [hf] at hp; cases hp
      | some g =>
        rw [hf] at hp
        simp only at hp
        obtain ⟨_, hgt⟩ := hs.from_complete hlaw h hh rid b newest g hb hf
        unfold planDerive at hp
        rw [hn] at hp
        simp only at hp
        obtain ⟨data, h1, hp⟩ := bind_ok_inv _ _ _ hp
        obtain ⟨next, h2, hp⟩ := bind_ok_inv _ _ _ hp
        obtain ⟨rev, h3, hp⟩ := bind_ok_inv _ _ _ hp
        obtain ⟨dp, h4, hp⟩ := bind_ok_inv _ _ _ hp
        obtain ⟨c, h5, hp⟩ := bind_ok_inv _ _ _ hp
        obtain ⟨d, h6, hp⟩ := bind_ok_inv _ _ _ hp
        simp only [Res.ok.injEq, Prod.mk.injEq] at hp
        obtain ⟨rfl, rfl, rfl⟩ := hp
        refine ⟨_, rfl, rfl, ⟨_, _, h6⟩, ?_⟩
        obtain ⟨rr, rfl, _⟩ := ancestorsRev_shape _ _ _ _ _ h3
        obtain ⟨ord, prev, hno, h7, _⟩ := createDependencies_ok _ g (by simp) _ _ _ _ _ _ _ h4
        rw [h7]
        intro t ht hc
        obtain ⟨e, he, rfl⟩ := hs.logged t ht
        obtain ⟨⟨en, hen, hnp⟩, hmax⟩ := newest_control hk hs.ideal.inv.sorted newest hn
        have hle := hmax e he
        simp only at hc
        split at hc
        · rename_i hng
          subst hng
          rw [← hnp] at hc hle hgt
          rcases hs.top e.1 ht en hen hc with h8 | h8
          · rw [h8] at hgt; exact hgt ht
          · rcases hle.2 with h9 | h9
            · rw [h9] at ht; exact hgt ht
            · exact List.lt_irrefl _ (List.lt_trans h8 h9)
        · omega
    · exact hnew hp
  obtain ⟨p, rfl, rfl, h1, h2⟩ := key
  exact ⟨p, rfl, rfl, h1, hsave, h2⟩

theorem names_write (d : Dir) (n : Bytes) (f : File) (h : n ∉ d.map (·.1)) : (d.write n f).map (·.1) = d.map (·.1) ++ [n] := by
  rw [write_fresh d n f h]
  simp

/-- A new file, complete or not, keeps the relation. -/
theorem Sim.add (hlaw : k.Lawful) (hs : Sim o k bst st log torn) (hl : log.length < 10 ^ 8 - 1) (shift : Shift) (rid : Nat)
    (s : S) (p : Props) (f : File) (hsave : save o shift k.ops st rid none s = (⟨st.dir.write p.filename f, some (rid, p)⟩, .ok p))
    (hctl : ∀ t ∈ torn, p.control ≠ t.control) (hf : FileOk f) (hd : IsDiff k f.2) (c : Bytes) (hc : phaseFile f.1 f.2 = .ok c)
    (torn' : List Props) (c' : Bytes) (base' : Option (Nat × Props))
    (hcase : (torn' = torn ∧ c' = c ∧ base' = some (rid, p)) ∨ (torn' = torn ∧ c' = c ∧ base' = st.base) ∨
      (torn' = p :: torn ∧ (∃ n < c.length, c' = c.take n) ∧ base' = st.base)) :
    Sim o k ⟨bst.dir.write p.filename c', base'⟩ ⟨st.dir.write p.filename f, base'⟩ ((p, s) :: log) torn' := by
  obtain ⟨hfresh, hi', _⟩ := save_inv hs.ideal.inv hl shift k.ops rid s p hsave
  have hr' : Reach o k.ops ⟨st.dir.write p.filename f, base'⟩ ((p, s) :: log) := by
    rcases hcase with ⟨_, _, rfl⟩ | ⟨_, _, rfl⟩ | ⟨_, _, rfl⟩
    · exact Reach.save shift st _ log rid s p hs.ideal hl hsave
    · exact Reach.unfinished shift st _ log rid s p hs.ideal hl hsave
    · exact Reach.unfinished shift st _ log rid s p hs.ideal hl hsave
  have hne : ∀ e ∈ log, e.1.filename ≠ p.filename := by
    intro e he hc
    obtain ⟨g, hg, _⟩ := hs.ideal.inv.files e he
    rw [hc] at hg
    exact hfresh (mem_of_read _ _ _ hg)
  have hpt : p ∉ torn := fun ht => hctl p ht rfl
  have hsub : ∀ t ∈ torn', t = p ∨ t ∈ torn := by
    intro t ht
    rcases hcase with ⟨rfl, _⟩ | ⟨rfl, _⟩ | ⟨rfl, _⟩
    · exact Or.inr ht
    · exact Or.inr ht
    · exact List.mem_cons.1 ht
  have hold : ∀ t ∈ torn, t ∈ torn' := by
    intro t ht
    rcases hcase with ⟨rfl, _⟩ | ⟨rfl, _⟩ | ⟨rfl, _⟩
    · exact ht
    · exact ht
    · exact List.mem_cons_of_mem _ ht
  have hmem : ∀ e ∈ log, (e.1 ∈ torn' ↔ e.1 ∈ torn) := by
    intro e he
    refine ⟨fun ht => ?_, hold _⟩
    rcases hsub _ ht with h | h
    · exact absurd (congrArg Props.filename h) (hne e he)
    · exact h
  obtain ⟨h, hh, hk⟩ := hs.ideal.inv.history
  refine ⟨hr', ?_, rfl, ?_, ?_, ?_, ?_, ?_⟩
  · simp only
    rw [bwrite_names, hs.names, if_neg hfresh, names_write _ _ _ hfresh]
  · intro r q hq ht
    rcases hcase with ⟨rfl, _, rfl⟩ | ⟨rfl, _, rfl⟩ | ⟨rfl, _, rfl⟩
    · simp only [Option.some.injEq, Prod.mk.injEq] at hq
      rw [← hq.2] at ht
      exact hpt ht
    · exact hs.baseok r q hq ht
    · rcases List.mem_cons.1 ht with rfl | ht
      · obtain ⟨e, he, h1⟩ := hs.ideal.inv.base r q hq
        exact hne e he (congrArg Props.filename h1)
      · exact hs.baseok r q hq ht
  · intro e he
    simp only
    rcases List.mem_cons.1 he with rfl | he
    · refine ⟨f, c, ?_, hf, hd, hc, ?_, ?_⟩
      · rw [read_write, if_pos rfl]
      · intro ht
        rw [bread_write, if_pos rfl]
        rcases hcase with ⟨_, rfl, _⟩ | ⟨_, rfl, _⟩ | ⟨rfl, _⟩
        · rfl
        · rfl
        · simp at ht
      · intro ht
        rw [bread_write, if_pos rfl]
        rcases hcase with ⟨rfl, _⟩ | ⟨rfl, _⟩ | ⟨_, ⟨n, hn, rfl⟩, _⟩
        · exact absurd ht hpt
        · exact absurd ht hpt
        · exact ⟨n, hn, rfl⟩
    · obtain ⟨g, c0, h1, h2, h3, h4, h5, h6⟩ := hs.files e he
      refine ⟨g, c0, ?_, h2, h3, h4, ?_, ?_⟩
      · rw [read_write, if_neg (Ne.symm (hne e he)), h1]
      · intro ht
        rw [bread_write, if_neg (Ne.symm (hne e he))]
        exact h5 (fun h => ht ((hmem e he).2 h))
      · intro ht
        rw [bread_write, if_neg (Ne.symm (hne e he))]
        exact h6 ((hmem e he).1 ht)
  · intro t ht
    rcases hsub t ht with rfl | ht
    · exact ⟨_, List.mem_cons_self, rfl⟩
    · obtain ⟨e, he, h1⟩ := hs.logged t ht
      exact ⟨e, List.mem_cons_of_mem _ he, h1⟩
  · intro h' hh' e he rev hrev q hq hqt
    -- the chains of the log
    have hlog : ∀ x, (∃ e ∈ log, e.1 = x) → x ∈ torn' → x ∈ torn := by
      rintro x ⟨e, he, rfl⟩ hc
      exact (hmem e he).1 hc
    rcases List.mem_cons.1 he with rfl | he
    · have hsv : St.history ⟨st.dir.write p.filename f, some (rid, p)⟩ = .ok h' := hh'
      rcases save_chain hs.ideal.inv hl shift k.ops rid s p hsave h h' hh hsv with
        ⟨deps, _, _, _, g1, _, _, _, g2⟩ | hlost
      · simp only at hrev
        rw [g1] at hrev
        cases hrev
        rcases List.mem_cons.1 hq with rfl | hq
        · rfl
        · exfalso
          rw [List.mem_reverse] at hq
          rcases g2 with rfl | ⟨b, newest, fr, rev, g2, _, g4, g5, g6, _⟩
          · simp at hq
          · obtain ⟨⟨ef, hef, rfl⟩, hft⟩ := hs.from_complete hlaw h hh rid b newest fr g2 g4
            have hqt' := hlog q (chain_logged hk ef hef _ _ _ g5 q (g6 q hq)) hqt
            exact hft (hs.clean h hh ef hef rev g5 q (g6 q hq) hqt' ▸ hqt')
      · have := lost_no_chain hr' h' hh' (p, s) (by simp) hlost
        rw [this] at hrev
        cases hrev
    · rcases hs.ideal.loads hlaw.ops h hh e he with ⟨rev0, h1, _⟩ | hlost
      · obtain ⟨h'', hh'', hk'⟩ := hr'.inv.history
        rw [hh'] at hh''
        cases hh''
        have := ancestorsRev_mono h h' (hk.extends hk' (fun e he => by simp [he])) _ _ _ _ h1
        rw [this] at hrev
        cases hrev
        exact hs.clean h hh e he _ h1 q hq (hlog q (chain_logged hk e he _ _ _ h1 q hq) hqt)
      · have hl2 := hlost.mono (log' := (p, s) :: log) (fun e he => by simp [he])
        rw [lost_no_chain hr' h' hh' e (by simp [he]) hl2] at hrev
        cases hrev
  · intro t ht e he hce
    rcases hsub t ht with rfl | ht
    · rcases List.mem_cons.1 he with rfl | he
      · exact Or.inl rfl
      · exact Or.inr ((List.pairwise_cons.1 hi'.sorted).1 e he)
    · rcases List.mem_cons.1 he with rfl | he
      · exact absurd hce (hctl t ht)
      · exact hs.top t ht e he hce

/-- A complete file is loaded as in the run without interruptions. -/
theorem Sim.load_complete (hs : Sim o k bst st log torn) (h : Hist) (hh : st.history = .ok h) (e : Props × S) (he : e ∈ log)
    (ht : e.1 ∉ torn) : bload o k.ops bst.dir h e.1 = load o k.ops st.dir h e.1 := by
  obtain ⟨h', hh', hk⟩ := hs.ideal.inv.history
  rw [hh] at hh'
  cases hh'
  unfold bload load
  rw [hs.ideal.inv.analyze_file e he]
  simp only [Res.bind_ok]
  cases hrev : ancestorsRev h e.1 o.maxPhase o.cumulative.isSome with
  | err => rfl
  | panic => rfl
  | ok rev =>
    simp only [Res.bind_ok]
    refine hs.comp _ (fun q hq => ?_) _
    rw [List.mem_reverse] at hq
    exact ⟨chain_logged hk e he _ _ rev hrev q hq, fun hqt => ht (hs.clean h hh e he rev hrev q hq hqt ▸ hqt)⟩

/-- An incomplete file cannot be loaded. -/
theorem Sim.load_torn (hlaw : k.Lawful) (hs : Sim o k bst st log torn) (h : Hist) (hh : st.history = .ok h) (e : Props × S)
    (he : e ∈ log) (ht : e.1 ∈ torn) : bload o k.ops bst.dir h e.1 = .err := by
  obtain ⟨h', hh', hk⟩ := hs.ideal.inv.history
  rw [hh] at hh'
  cases hh'
  unfold bload
  rw [hs.ideal.inv.analyze_file e he]
  simp only [Res.bind_ok]
  rcases hs.ideal.loads hlaw.ops h hh e he with ⟨rev, h1, h2⟩ | hlost
  · rw [h1]
    simp only [Res.bind_ok]
    obtain ⟨r, hr, _⟩ := ancestorsRev_shape _ _ _ _ _ h1
    obtain ⟨as, bs, h3, h4⟩ := List.eq_append_cons_of_mem (a := e.1) (xs := rev.reverse) (by simp [hr])
    rw [h3, compose_append] at h2
    obtain ⟨c, h5, _⟩ := bind_ok_inv _ _ _ h2
    have hmem : ∀ q ∈ as, q ∈ rev := fun q hq => by rw [← List.mem_reverse, h3]; simp [hq]
    rw [h3, bcompose_append, hs.comp as (fun q hq => ⟨chain_logged hk e he _ _ _ h1 q (hmem q hq), fun hqt => h4
      (hs.clean h hh e he _ h1 q (hmem q hq) hqt ▸ hq)⟩), h5]
    simp only [Res.bind_ok]
    obtain ⟨f, c, g1, g2, g3, g4, _, g5⟩ := hs.files e he
    obtain ⟨n, hn, g5⟩ := g5 ht
    exact bcompose_torn g5 (file_torn hlaw g2 g3 g4 n hn) _ _
  · rw [lost_no_chain hs.ideal h hh e he hlost]
    rfl

/-- Every run with interruptions has a run without. -/
theorem BReach.sim (hlaw : k.Lawful) (hr : BReach o k.ops bst log torn) : ∃ st, Sim o k bst st log torn := by
  induction hr with
  | start dir hn hf =>
    refine ⟨⟨dir.map (fun e => (e.1, ([], []))), none⟩, ⟨.start _ ?_ ?_, ?_, rfl, ?_, ?_, ?_, ?_, ?_⟩⟩
    · simpa [List.map_map, Function.comp_def] using hn
    · intro e he
      obtain ⟨x, hx, rfl⟩ := List.mem_map.1 he
      exact hf x hx
    · simp [List.map_map, Function.comp_def]
    · intro r p h; cases h
    · intro e he; simp at he
    · intro t ht; simp at ht
    · intro h _ e he; simp at he
    · intro t ht; simp at ht
  | save shift bst bst' log torn rid s p hr hl hf hs ih =>
    obtain ⟨st, ih⟩ := ih
    unfold bsave at hs
    cases hp : bplan o shift k.ops bst rid none s with
    | err => rw [hp] at hs; simp at hs
    | panic => rw [hp] at hs; simp at hs
    | ok x =>
      obtain ⟨name, f, r⟩ := x
      obtain ⟨p', rfl, rfl, h1, h2, h3⟩ := ih.plan_shape hlaw hl shift rid s name f r hp
      rw [hp] at hs
      simp only [Res.bind_ok] at hs
      cases hc : phaseFile f.1 f.2 with
      | err => rw [hc] at hs; simp at hs
      | panic => rw [hc] at hs; simp at hs
      | ok c =>
        rw [hc] at hs
        simp only [Res.map_ok, Prod.mk.injEq, Res.ok.injEq] at hs
        obtain ⟨rfl, rfl⟩ := hs
        exact ⟨_, ih.add hlaw hl shift rid s p' f h2 h3 (hf _ hp) h1 c hc torn c _ (Or.inl ⟨rfl, rfl, rfl⟩)⟩
  | fail shift bst bst' log torn rid s r hr hl hf hs hne ih =>
    obtain ⟨st, ih⟩ := ih
    refine ⟨st, ?_⟩
    unfold bsave at hs
    cases hp : bplan o shift k.ops bst rid none s with
    | err => rw [hp] at hs; cases hs; exact ih
    | panic => rw [hp] at hs; cases hs; exact ih
    | ok x =>
      obtain ⟨name, f, r'⟩ := x
      obtain ⟨p', rfl, rfl, h1, h2, h3⟩ := ih.plan_shape hlaw hl shift rid s name f r' hp
      rw [hp] at hs
      simp only [Res.bind_ok] at hs
      cases hc : phaseFile f.1 f.2 with
      | err => rw [hc] at hs; cases hs; exact ih
      | panic => rw [hc] at hs; cases hs; exact ih
      | ok c =>
        rw [hc] at hs
        simp only [Res.map_ok, Prod.mk.injEq] at hs
        exact absurd hs.2.symm (hne p')
  | interrupt shift bst log torn rid s name c f p n hr hl hp hf hc ih =>
    obtain ⟨st, ih⟩ := ih
    obtain ⟨p', h0, rfl, h1, h2, h3⟩ := ih.plan_shape hlaw hl shift rid s name f _ hp
    cases h0
    unfold interrupted
    rw [ih.base]
    by_cases hn : n < c.length
    · rw [if_pos hn]
      exact ⟨_, ih.add hlaw hl shift rid s p f h2 h3 hf h1 c hc _ _ _ (Or.inr (Or.inr ⟨rfl, ⟨n, hn, rfl⟩, rfl⟩))⟩
    · rw [if_neg hn, List.take_of_length_le (by omega)]
      exact ⟨_, ih.add hlaw hl shift rid s p f h2 h3 hf h1 c hc _ _ _ (Or.inr (Or.inl ⟨rfl, rfl, rfl⟩))⟩
  | load bst log torn h p rid hr hh hp ih =>
    obtain ⟨st, ih⟩ := ih
    have hh' : st.history = .ok h := by rw [← ih.history]; exact hh
    obtain ⟨h', hh'', hk⟩ := ih.ideal.inv.history
    rw [hh'] at hh''
    cases hh''
    have hpl := hp
    rw [mem_listFiles h hk.1, hk.2] at hpl
    obtain ⟨⟨e, he, rfl⟩, _⟩ := hpl
    by_cases ht : e.1 ∈ torn
    · refine ⟨st, ?_⟩
      unfold bloadFile
      rw [ih.load_torn hlaw h hh' e he ht]
      exact ih
    · unfold bloadFile
      rw [ih.load_complete h hh' e he ht]
      have hr2 := Reach.load st log h e.1 rid ih.ideal hh' hp
      unfold loadFile at hr2
      cases hload : History.load o k.ops st.dir h e.1 with
      | err => exact ⟨st, ih⟩
      | panic => exact ⟨st, ih⟩
      | ok s =>
        rw [hload] at hr2
        refine ⟨_, hr2, ih.names, rfl, ?_, ih.files, ih.logged, (fun h hh => ih.clean h hh), ih.top⟩
        intro r q hq
        simp only [Option.some.injEq, Prod.mk.injEq] at hq
        rw [← hq.2]
        exact ht
  | list bst dir log torn hr hp ih =>
    obtain ⟨st, ih⟩ := ih
    have hnd : (bst.dir.map (·.1)).Nodup := by rw [ih.names]; exact ih.ideal.inv.nodup
    have hdir : bst.dir.map (fun e => (e.1, (st.dir.read e.1).getD ([], []))) = st.dir := by
      have h1 : bst.dir.map (fun e => (e.1, (st.dir.read e.1).getD ([], []))) =
          (bst.dir.map (·.1)).map (fun n => (n, (st.dir.read n).getD ([], []))) := by
        simp [List.map_map, Function.comp_def]
      rw [h1, ih.names, List.map_map]
      conv_rhs => rw [← List.map_id st.dir]
      refine List.map_congr_left (fun e he => ?_)
      have := (read_mem st.dir ih.ideal.inv.nodup e.1 e.2).2 he
      simp [this]
    have hperm : (dir.map (fun e => (e.1, (st.dir.read e.1).getD ([], [])))).Perm st.dir := by
      conv => arg 2; rw [← hdir]
      exact hp.map _
    have hr2 := Reach.list st _ log ih.ideal hperm
    have hread := fun n => read_perm _ _ hperm ih.ideal.inv.nodup n
    refine ⟨_, hr2, ?_, ih.base, ih.baseok, ?_, ih.logged, ?_, ih.top⟩
    · simp [List.map_map, Function.comp_def]
    · intro e he
      obtain ⟨f, c, h1, h2, h3, h4, h5, h6⟩ := ih.files e he
      refine ⟨f, c, ?_, h2, h3, h4, ?_, ?_⟩
      · simp only; rw [hread, h1]
      · simp only; rw [bread_perm _ _ hp hnd]; exact h5
      · simp only; rw [bread_perm _ _ hp hnd]; exact h6
    · intro h' hh' e he rev hrev q hq hqt
      obtain ⟨h, hh, hk⟩ := ih.ideal.inv.history
      obtain ⟨h'', hh'', hk'⟩ := hr2.inv.history
      rw [hh'] at hh''
      cases hh''
      have hx : Extends h' h := hk'.extends hk (fun e he => he)
      exact ih.clean h hh e he rev (ancestorsRev_mono h' h hx _ _ _ _ hrev) q hq hqt
  | restart bst log torn hr ih =>
    obtain ⟨st, ih⟩ := ih
    exact ⟨⟨st.dir, none⟩, .restart st log ih.ideal, ih.names, rfl, (fun r p h => nomatch h), ih.files, ih.logged,
      (fun h hh => ih.clean h hh), ih.top⟩
  | other bst log torn r e hr he ht ih =>
    obtain ⟨st, ih⟩ := ih
    refine ⟨⟨st.dir, some (r, e.1)⟩, .other st log r e ih.ideal he, ih.names, rfl, fun r' p h => ?_, ih.files, ih.logged,
      (fun h hh => ih.clean h hh), ih.top⟩
    cases h
    exact ht

end
end Verif.History
