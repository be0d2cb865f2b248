import Verif.Spec.HistoryCache
import Verif.Lemmas.HistoryLoose
import Verif.Lemmas.Cache
/-!
# Histories with the cache

What the cache holds of a file need not be what the file gives: it is the object that was saved, or what the file gives when it is applied to
another such object. Such versions of a file are alike, and a diff can be applied to any of them.
-/
namespace Verif.History
open VarInt FileName FileHistory Phase Codec Source

section
variable {S I : Type}

/-- What edits keep (`K`) of objects (`Ok`), and what a diff restores (`Alike`), from whatever version of the object that it was made for. -/
structure RoughC (k : KOps S) (diffs : I → S → S → Res (List KVal)) (Ok : S → Prop) (K Edits : S → S → Prop) (Fine : I → S → S → Prop) (Alike : S → S → Prop) : Prop where
  src : Ok k.src
  refl : ∀ a, Ok a → Alike a a
  symm : ∀ a b, Alike a b → Alike b a
  trans : ∀ a b c, Alike a b → Alike b c → Alike a c
  hold : ∀ a b, Ok b → Alike a b → K a b
  left : ∀ a a' b, Alike a' a → K a b → K a' b
  edit : ∀ a b, Ok a → Edits a b → Ok b ∧ ∀ e, Ok e → K e a → K e b
  diff : ∀ i a s vals, Ok a → Ok s → K a s → Fine i a s → diffs i a s = .ok vals →
    Short vals ∧ ∀ g, Ok g → Alike g a → ∃ r, k.app g (vals.map norm) = .ok r ∧ Ok r ∧ Alike r s ∧ ∀ e, Ok e → K e g → K e s → K e r

/-- `s` keeps what the files of the chain of `p` store -/
def KeptBy (o : Opts) (K : S → S → Prop) (st : BSt) (store : List (Props × Stored S)) (p : Props) (s : S) : Prop :=
  ∀ h, st.history = .ok h → ∀ rev, ancestorsRev h p o.maxPhase o.cumulative.isSome = .ok rev → ∀ q ∈ rev, ∃ e ∈ store, e.1 = q ∧ K e.2.1 s

/-- `x` is a version of what the file `e` holds -/
structure Version (o : Opts) (k : KOps S) (Ok : S → Prop) (K Alike : S → S → Prop) (st : BSt) (store : List (Props × Stored S))
    (e : Props × Stored S) (x : S) : Prop where
  ok : Ok x
  alike : Alike x e.2.1
  src : K k.src x
  kept : KeptBy o K st store e.1 x

/-- the diff can be applied to all versions of what it was made for, and keeps what these and the saved object `s` keep -/
def Resp (k : KOps S) (Ok : S → Prop) (K Alike : S → S → Prop) (b : Stored S) (s : S) : Prop :=
  ∀ x, Ok x → Alike x b.2.2 → ∃ r, k.app x b.2.1 = .ok r ∧ Ok r ∧ Alike r b.1 ∧ ∀ a, Ok a → K a x → K a s → K a r

structure CacheV (o : Opts) (k : KOps S) (Ok : S → Prop) (K Alike : S → S → Prop) (st : BSt) (store : List (Props × Stored S))
    (torn : List Props) (c : Cache S) : Prop where
  asc : (c.map (·.1)).Pairwise (· < ·)
  entry : ∀ x ∈ c, ∃ e ∈ store, e.1 ∉ torn ∧ e.1.filename = x.2.1 ∧ e.1.order.length = x.1 + 1 ∧ Version o k Ok K Alike st store e x.2.2

structure CInv (o : Opts) (k : KOps S) (Ok : S → Prop) (K Alike : S → S → Prop) (st : BSt) (c : Cache S) (live : Live S)
    (log : List (Props × S)) (store : List (Props × Stored S)) (torn : List Props) : Prop where
  lives : ∀ rid s, live rid = some s → Ok s ∧ K k.src s
  pairs : List.Forall₂ (fun e e' => e'.1 = e.1 ∧ Alike e'.2.1 e.2) log store
  stored : ∀ e ∈ store, Ok e.2.1
  resp : ∀ e ∈ store, ∃ s, Version o k Ok K Alike st store e s ∧ Resp k Ok K Alike e.2 s
  base : ∀ rid p, st.base = some (rid, p) → ∃ e ∈ store, e.1 = p ∧ ∃ s, live rid = some s ∧ KeptBy o K st store p s
  cache : CacheV o k Ok K Alike st store torn c

/-! ## Plans -/

/-- the files that a save depends on -/
abbrev planDeps (o : Opts) (shift : Shift) (st : BSt) (rid : Nat) : Res (List Props) :=
  planBase o shift (st.dir.map (·.1)) st.base (bstat st.dir) (fun l => .ok l) rid none

theorem planBase_bind (o : Opts) (shift : Shift) (names : List Bytes) (base : Option (Nat × Props)) (stat : Bytes → Res Data)
    (comp : List Props → Res S) (rid : Nat) (tag : Option Bytes) :
    planBase o shift names base stat comp rid tag = (planBase o shift names base stat (fun l => .ok l) rid tag).bind comp := by
  have bb : ∀ {α β : Type} (r : Res α) (f : α → Res β) (g : β → Res S), (r.bind f).bind g = r.bind fun a => (f a).bind g := by
    intro α β r f g
    cases r <;> rfl
  unfold planBase
  rw [bb]
  congr 1
  funext h
  cases baseFor base rid with
  | none => rfl
  | some b =>
    cases h.newest with
    | none => rfl
    | some newest =>
      simp only
      cases fromFile o h b newest with
      | none => rfl
      | some f =>
        simp only [bb]
        rfl

/-- what a plan with the cache is, in terms of the plan without it -/
theorem bplanC_eq (o : Opts) (shift : Shift) (ops : Ops S) (st : BSt) (c : Cache S) (rid : Nat) (s : S) :
    (bplanC o shift ops st c rid none s).2.map Prod.fst =
        plan o shift ops (st.dir.map (·.1)) st.base (bstat st.dir) (fun l => (bapplyForSave o ops st.dir l c).2) rid none s ∧
      (bplanC o shift ops st c rid none s).1 = match planDeps o shift st rid with
        | .ok l => (bapplyForSave o ops st.dir l c).1
        | _ => c := by
  have hcr : st.history = createHistory (st.dir.map (·.1)) .empty := rfl
  unfold planDeps bplanC plan planBase
  rw [hcr]
  cases createHistory (st.dir.map (·.1)) .empty with
  | err => exact ⟨rfl, rfl⟩
  | panic => exact ⟨rfl, rfl⟩
  | ok h =>
    simp only [Res.bind_ok]
    have new : (planNewC o ops none (newControl h) s st.dir c).2.map Prod.fst =
        planNew ops none (newControl h) s (fun l => (bapplyForSave o ops st.dir l c).2) ∧
        (planNewC o ops none (newControl h) s st.dir c).1 = (bapplyForSave o ops st.dir [] c).1 := by
      refine ⟨?_, rfl⟩
      unfold planNewC planNew
      simp only
      cases (bapplyForSave o ops st.dir [] c).2 with
      | err => rfl
      | panic => rfl
      | ok x =>
        simp only [Res.bind_ok]
        cases ops.diff x s <;> rfl
    cases baseFor st.base rid with
    | none => exact new
    | some b =>
      cases hn : h.newest with
      | none => exact new
      | some newest =>
        simp only
        cases fromFile o h b newest with
        | none => exact ⟨rfl, rfl⟩
        | some f =>
          simp only
          unfold planDeriveC planDerive
          rw [hn]
          simp only
          cases bstat st.dir f.filename with
          | err => exact ⟨rfl, rfl⟩
          | panic => exact ⟨rfl, rfl⟩
          | ok data =>
            simp only [Res.bind_ok]
            cases calcNextPhase o shift data with
            | err => exact ⟨rfl, rfl⟩
            | panic => exact ⟨rfl, rfl⟩
            | ok next =>
              simp only [Res.bind_ok]
              cases ancestorsRev h f o.maxPhase o.cumulative.isSome with
              | err => exact ⟨rfl, rfl⟩
              | panic => exact ⟨rfl, rfl⟩
              | ok rev =>
                simp only [Res.bind_ok]
                cases createDependencies rev.reverse next (if newest = f then newest.control else newest.control + 1) none o.maxPhase
                    o.cumulative.isSome with
                | err => exact ⟨rfl, rfl⟩
                | panic => exact ⟨rfl, rfl⟩
                | ok dp =>
                  refine ⟨?_, rfl⟩
                  simp only [Res.bind_ok]
                  cases (bapplyForSave o ops st.dir dp.1 c).2 with
                  | err => rfl
                  | panic => rfl
                  | ok x =>
                    simp only [Res.bind_ok]
                    cases ops.diff x s <;> rfl

theorem bapplyCaching_result (ops : Ops S) (dir : BDir) (m : Nat) (l : List Props) (cur : Nat) (s : S) (c : Cache S) :
    (bapplyCaching ops dir m l cur s c).2 = bcompose ops dir l s := by
  induction l generalizing cur s c with
  | nil => rfl
  | cons p l ih =>
    rw [bapplyCaching, bcompose]
    unfold bapplyOne
    cases dir.read p.filename with
    | none => rfl
    | some b =>
      simp only
      cases decodeVals b with
      | err => rfl
      | panic => rfl
      | ok r =>
        simp only [Res.bind_ok]
        cases ops.app s r.2 with
        | err => rfl
        | panic => rfl
        | ok s' =>
          simp only [Res.bind_ok]
          split
          · exact ih _ _ _
          · exact ih _ _ _

/-! ## Chains -/

variable {k : KOps S} {diffs : I → S → S → Res (List KVal)} {Ok : S → Prop} {K Edits : S → S → Prop} {Fine : I → S → S → Prop} {Alike : S → S → Prop} {o : Opts} {st st' : BSt}
  {c c' : Cache S} {live : Live S} {log : List (Props × S)} {store : List (Props × Stored S)} {torn torn' : List Props}

/-- A chain, oldest file first. -/
def BGood (o : Opts) (k : KOps S) (st : BSt) (h : Hist) (store : List (Props × Stored S)) (torn : List Props) (anc : List Props) : Prop :=
  ∀ (j : Nat) a, anc[j]? = some a → ∃ e ∈ store, e.1 = a ∧
    ancestorsRev h a o.maxPhase o.cumulative.isSome = .ok (anc.take (j + 1)).reverse ∧ a.order.length = min (j + 1) (o.maxPhase + 1) ∧
    (a ∉ torn → bcompose (storeOps k).ops st.dir (anc.take (j + 1)) (storeOps k).src = .ok e.2)

theorem BGood.take {h : Hist} {anc : List Props} (hg : BGood o k st h store torn anc) (n : Nat) : BGood o k st h store torn (anc.take n) := by
  intro j a ha
  rw [List.getElem?_take] at ha
  split at ha
  · obtain ⟨e, he, h1, h2⟩ := hg j a ha
    rw [List.take_take, Nat.min_eq_left (by omega)]
    exact ⟨e, he, h1, h2⟩
  · cases ha

theorem store_unique (hr : BReach o (storeOps k).ops st store torn) : ∀ e ∈ store, ∀ e' ∈ store, e.1 = e'.1 → e = e' := by
  obtain ⟨ist, hs⟩ := hr.sim (storeOps_lawful k)
  exact hs.ideal.inv.unique

/-- The chains of files are good, and only the last file of a chain can be torn. -/
theorem chain_good (hr : BReach o (storeOps k).ops st store torn) (h : Hist) (hh : st.history = .ok h) (e : Props × Stored S) (he : e ∈ store)
    (rev : List Props) (hrev : ancestorsRev h e.1 o.maxPhase o.cumulative.isSome = .ok rev) :
    BGood o k st h store torn rev.reverse ∧ ∀ q ∈ rev, q ∈ torn → q = e.1 := by
  have hlaw := storeOps_lawful k
  obtain ⟨ist, hs⟩ := hr.sim hlaw
  have hhi : ist.history = .ok h := by rw [← hs.history]; exact hh
  obtain ⟨h0, hh0, hk⟩ := hs.ideal.inv.history
  rw [hhi] at hh0
  cases hh0
  refine ⟨fun j a ha => ?_, fun q hq hqt => hs.clean h hhi e he rev hrev q hq hqt⟩
  obtain ⟨_, hne, hlen, _⟩ := hs.ideal.inv.small e he
  obtain ⟨h1, h2⟩ := ancestorsRev_get h (keyed_of_hwf h hk.1) _ _ e.1 rev hne hlen hrev j a ha
  obtain ⟨e', he', rfl⟩ := chain_logged hk e he _ _ rev hrev a (List.mem_reverse.1 (List.mem_of_getElem? ha))
  refine ⟨e', he', rfl, h1, h2, fun ht => ?_⟩
  obtain ⟨h3, hh3, _, _, hl⟩ := C38_interrupted_saves o _ hlaw st _ torn hr
  rw [hh] at hh3
  cases hh3
  have hnl : ¬ Lost o store e'.1 := fun hlo => by
    rw [lost_no_chain hs.ideal h hhi e' he' hlo] at h1
    cases h1
  have := (hl e'.1 e'.2 he').1 ht hnl
  unfold bload at this
  rw [hs.ideal.inv.analyze_file e' he'] at this
  simp only [Res.bind_ok] at this
  rw [h1, Res.bind_ok, List.reverse_reverse] at this
  exact this

/-- the object `x` is a version of what the first `n` files of the chain hold -/
structure At (k : KOps S) (Ok : S → Prop) (K Alike : S → S → Prop) (st : BSt) (store : List (Props × Stored S)) (anc : List Props) (n : Nat)
    (x : S) : Prop where
  ok : Ok x
  src : K k.src x
  kept : ∀ q ∈ anc.take n, ∃ e ∈ store, e.1 = q ∧ K e.2.1 x
  alike : ∃ y, bcompose (storeOps k).ops st.dir (anc.take n) (storeOps k).src = .ok y ∧ Alike x y.1

theorem At.start (hK : RoughC k diffs Ok K Edits Fine Alike) (anc : List Props) : At k Ok K Alike st store anc 0 k.src where
  ok := hK.src
  src := hK.hold _ _ hK.src (hK.refl _ hK.src)
  kept := by simp
  alike := ⟨(storeOps k).src, by simp [bcompose], hK.refl _ hK.src⟩

/-- One more file. -/
theorem At.step (hK : RoughC k diffs Ok K Edits Fine Alike) (hr : BReach o (storeOps k).ops st store torn)
    (hi : ∀ e ∈ store, ∃ s, Version o k Ok K Alike st store e s ∧ Resp k Ok K Alike e.2 s) (hst : ∀ e ∈ store, Ok e.2.1)
    (h : Hist) (hh : st.history = .ok h)
    {anc : List Props} (hg : BGood o k st h store torn anc) {n : Nat} {x : S} (hx : At k Ok K Alike st store anc n x) {p : Props}
    (hp : anc[n]? = some p) (ht : p ∉ torn) :
    ∃ x' e, bapplyOne k.ops st.dir p x = .ok x' ∧ At k Ok K Alike st store anc (n + 1) x' ∧ e ∈ store ∧ e.1 = p ∧
      Version o k Ok K Alike st store e x' := by
  obtain ⟨e, he, rfl, hch, hlen, hcomp⟩ := hg n p hp
  have hcomp := hcomp ht
  have hn : n < anc.length := by
    by_contra hc
    rw [List.getElem?_eq_none (by omega)] at hp
    cases hp
  have htake : anc.take (n + 1) = anc.take n ++ [e.1] := by
    rw [List.take_succ_eq_append_getElem hn]
    rw [List.getElem?_eq_getElem hn] at hp
    rw [Option.some.inj hp]
  have hcomp0 := hcomp
  obtain ⟨y, hy, hxy⟩ := hx.alike
  rw [htake, bcompose_append, hy, Res.bind_ok, bcompose] at hcomp
  cases hrd : st.dir.read e.1.filename with
  | none => rw [hrd] at hcomp; cases hcomp
  | some b =>
    rw [hrd] at hcomp
    simp only at hcomp
    obtain ⟨r, hr1, hcomp⟩ := bind_inv hcomp
    obtain ⟨z, hz, hcomp⟩ := bind_inv hcomp
    cases hcomp
    obtain ⟨v, hv, hz⟩ := bind_inv hz
    unfold storeOps at hz
    simp only at hz
    obtain ⟨w, hw, he2⟩ := map_inv hz
    obtain ⟨s, hs, hresp⟩ := hi e he
    have hb1 : e.2.1 = w := by rw [← he2]
    have hb2 : e.2.2.1 = v.1 := by rw [← he2]
    have hb3 : e.2.2.2 = y.1 := by rw [← he2]
    obtain ⟨x', hx1, hx2, hx3, hx4⟩ := hresp x hx.ok (by rw [hb3]; exact hxy)
    rw [hb2] at hx1
    have hsrc : K k.src x' := hx4 _ hK.src hx.src hs.src
    have hkept : ∀ q ∈ anc.take (n + 1), ∃ e ∈ store, e.1 = q ∧ K e.2.1 x' := by
      intro q hq
      rw [htake, List.mem_append, List.mem_singleton] at hq
      rcases hq with hq | rfl
      · obtain ⟨e1, he1, hq1, hk1⟩ := hx.kept q hq
        obtain ⟨e2, he2', hq2, hk2⟩ := hs.kept h hh _ hch q (by rw [List.mem_reverse, htake]; exact List.mem_append_left _ hq)
        have : e1 = e2 := store_unique hr e1 he1 e2 he2' (by rw [hq1, hq2])
        subst this
        exact ⟨e1, he1, hq1, hx4 _ (hst e1 he1) hk1 hk2⟩
      · exact ⟨e, he, rfl, hK.hold _ _ hx2 (hK.symm _ _ hx3)⟩
    refine ⟨x', e, ?_, ⟨hx2, hsrc, hkept, e.2, hcomp0, hx3⟩, he, rfl, hx2, hx3, hsrc, fun h' hh' rev hrev q hq => ?_⟩
    · unfold bapplyOne
      rw [hrd]
      simp only
      rw [hr1, Res.bind_ok]
      unfold KOps.ops
      simp only
      rw [hv, Res.bind_ok, hx1]
    · rw [hh] at hh'
      cases hh'
      rw [hch] at hrev
      cases hrev
      exact hkept q (List.mem_reverse.1 hq)

/-! ## The cache -/

theorem CacheV.removeUpper (hc : CacheV o k Ok K Alike st store torn c) (n : Nat) : CacheV o k Ok K Alike st store torn (removeUpper c n) :=
  ⟨hc.asc.sublist ((removeUpper_sublist c n).map _), fun x hx => hc.entry x ((removeUpper_sublist c n).subset hx)⟩

theorem CacheV.insert (hc : CacheV o k Ok K Alike st store torn c) {e : Props × Stored S} (he : e ∈ store) (ht : e.1 ∉ torn) {n : Nat}
    (hn : e.1.order.length = n + 1) {x : S} (hv : Version o k Ok K Alike st store e x) :
    CacheV o k Ok K Alike st store torn (BMap.insert c n (e.1.filename, x)) := by
  refine ⟨insert_ascending _ hc.asc _ _, fun y hy => ?_⟩
  rcases mem_insert _ _ _ _ hy with rfl | hy
  · exact ⟨e, he, ht, rfl, hn, hv⟩
  · exact hc.entry y hy

/-- What is taken from the cache is a version of a file of the chain. -/
theorem getCachedItem_at (hK : RoughC k diffs Ok K Edits Fine Alike) (hr : BReach o (storeOps k).ops st store torn) (h : Hist)
    (hh : st.history = .ok h) {anc : List Props} (hg : BGood o k st h store torn anc) (hc : CacheV o k Ok K Alike st store torn c) :
    ∃ n root, getCachedItem k.src c anc o.maxPhase = .ok (root, anc.drop n) ∧ n ≤ anc.length ∧ At k Ok K Alike st store anc n root ∧
      ∀ j, n = j + 1 → ∀ a, anc[j]? = some a → a ∉ torn := by
  unfold getCachedItem
  cases hp : getPhaseCache c anc o.maxPhase with
  | none => exact ⟨0, k.src, by simp, by simp, At.start hK anc, fun j hj => by omega⟩
  | some i =>
    simp only
    have key : ∃ e : Bytes × S, BMap.get c i = some e ∧ ∃ j, j < anc.length ∧ At k Ok K Alike st store anc (j + 1) e.2 ∧
        (∀ a, anc[j]? = some a → a ∉ torn) ∧ (i = o.maxPhase → j + 1 = anc.length) ∧ (i ≠ o.maxPhase → j = i) := by
      have fin : ∀ (e : Bytes × S) (j : Nat) (a : Props), BMap.get c i = some e → anc[j]? = some a → e.1 = a.filename →
          At k Ok K Alike st store anc (j + 1) e.2 ∧ a ∉ torn ∧ i = min j o.maxPhase := by
        intro e j a he ha hf
        obtain ⟨x, hx, h1, h2, h3, h4⟩ := hg j a ha
        obtain ⟨y, hy, g0, g1, g2, g3⟩ := hc.entry (i, e) (mem_of_get _ _ _ he)
        simp only at g1 g2 g3
        have : y = x := store_unique hr y hy x hx (by
          apply filename_injective
          rw [g1, hf, h1])
        subst this
        rw [h1] at g2 g0
        refine ⟨⟨g3.ok, g3.src, fun q hq => ?_, _, h4 g0, g3.alike⟩, g0, by omega⟩
        exact g3.kept h hh _ (by rw [h1]; exact h2) q (List.mem_reverse.2 hq)
      unfold getPhaseCache at hp
      split at hp
      · rename_i x p hx hl
        split at hp
        · rename_i heq
          cases hp
          have hget : BMap.get c x.1 = some x.2 := get_of_mem c hc.asc _ _ (List.mem_of_getLast? hx)
          have hne : anc ≠ [] := by rintro rfl; cases hl
          have hpos : 0 < anc.length := List.length_pos_iff.2 hne
          have ha : anc[anc.length - 1]? = some p := by
            rw [← List.getLast?_eq_getElem?]; exact hl
          obtain ⟨f1, f2, f3⟩ := fin x.2 (anc.length - 1) p hget ha heq
          exact ⟨x.2, hget, anc.length - 1, by omega, f1, fun a h => by rw [ha] at h; cases h; exact f2, fun _ => by omega, fun hne => by omega⟩
        · obtain ⟨h1, e, q, h2, h3, h4⟩ := scan_some _ _ _ _ hp
          obtain ⟨f1, f2, f3⟩ := fin e i q h2 h3 h4
          refine ⟨e, h2, i, ?_, f1, fun a h => by rw [h3] at h; cases h; exact f2, fun _ => by omega, fun _ => rfl⟩
          by_contra hcc
          rw [List.getElem?_eq_none (by omega)] at h3
          cases h3
      · cases hp
    obtain ⟨e, he, j, hj, hat, hnt, h1, h2⟩ := key
    rw [he]
    simp only
    by_cases him : i = o.maxPhase
    · rw [if_pos him]
      refine ⟨j + 1, e.2, ?_, by omega, hat, fun j' hj' a ha => ?_⟩
      · rw [h1 him, List.drop_length]
      · have : j' = j := by omega
        subst this
        exact hnt a ha
    · rw [if_neg him]
      have := h2 him
      subst this
      refine ⟨j + 1, e.2, rfl, by omega, hat, fun j' hj' a ha => ?_⟩
      have : j' = j := by omega
      subst this
      exact hnt a ha

/-- Applying files with the callback. -/
theorem bapplyCaching_at (hK : RoughC k diffs Ok K Edits Fine Alike) (hr : BReach o (storeOps k).ops st store torn)
    (hi : ∀ e ∈ store, ∃ s, Version o k Ok K Alike st store e s ∧ Resp k Ok K Alike e.2 s) (hst : ∀ e ∈ store, Ok e.2.1) (h : Hist)
    (hh : st.history = .ok h) {anc : List Props} (hg : BGood o k st h store torn anc) (rest : List Props) (n cur : Nat) (root : S) (c : Cache S)
    (hrest : anc.drop n = rest) (hnt : ∀ q ∈ rest, q ∉ torn) (hcur : cur < o.maxPhase → cur = n) (hroot : At k Ok K Alike st store anc n root)
    (hn : n ≤ anc.length) (hc : CacheV o k Ok K Alike st store torn c) :
    (∃ x, (bapplyCaching k.ops st.dir o.maxPhase rest cur root c).2 = .ok x ∧ At k Ok K Alike st store anc anc.length x) ∧
      CacheV o k Ok K Alike st store torn (bapplyCaching k.ops st.dir o.maxPhase rest cur root c).1 := by
  induction rest generalizing n cur root c with
  | nil =>
    have : n = anc.length := by
      have := List.drop_eq_nil_iff.1 hrest
      omega
    subst this
    exact ⟨⟨root, rfl, hroot⟩, hc⟩
  | cons p rest ih =>
    have hn : n < anc.length := by
      by_contra hcc
      rw [List.drop_eq_nil_of_le (by omega)] at hrest
      cases hrest
    have h0 := List.drop_eq_getElem_cons hn
    rw [hrest] at h0
    have hp : anc[n]? = some p := by
      rw [List.getElem?_eq_getElem hn]
      cases h0; rfl
    have hr' : anc.drop (n + 1) = rest := by cases h0; rfl
    obtain ⟨x', e, h1, h2, he, rfl, hv⟩ := hroot.step hK hr hi hst h hh hg hp (hnt p (by simp))
    rw [bapplyCaching, h1]
    simp only
    split
    · rename_i hlt
      have := hcur hlt
      subst this
      obtain ⟨_, _, _, _, hlen, _⟩ := hg cur e.1 hp
      exact ih (cur + 1) (cur + 1) x' _ hr' (fun q hq => hnt q (by simp [hq])) (fun _ => rfl) h2 (by omega)
        (hc.insert he (hnt _ (by simp)) (by omega) hv)
    · rename_i hlt
      exact ih (n + 1) cur x' c hr' (fun q hq => hnt q (by simp [hq])) (fun h => absurd h hlt) h2 (by omega) hc

theorem bapplyForSave_at (hK : RoughC k diffs Ok K Edits Fine Alike) (hr : BReach o (storeOps k).ops st store torn)
    (hi : ∀ e ∈ store, ∃ s, Version o k Ok K Alike st store e s ∧ Resp k Ok K Alike e.2 s) (hst : ∀ e ∈ store, Ok e.2.1) (h : Hist)
    (hh : st.history = .ok h) {anc : List Props} (hg : BGood o k st h store torn anc) (hnt : ∀ q ∈ anc, q ∉ torn)
    (hc : CacheV o k Ok K Alike st store torn c) :
    (∃ x, (bapplyForSave o k.ops st.dir anc c).2 = .ok x ∧ At k Ok K Alike st store anc anc.length x) ∧
      CacheV o k Ok K Alike st store torn (bapplyForSave o k.ops st.dir anc c).1 := by
  obtain ⟨n, root, h1, h2, h3, _⟩ := getCachedItem_at hK hr h hh hg hc
  have h1' : getCachedItem k.ops.src c anc o.maxPhase = .ok (root, anc.drop n) := h1
  unfold bapplyForSave
  rw [h1']
  simp only
  have hlen : anc.length - (anc.drop n).length = n := by rw [List.length_drop]; omega
  rw [hlen]
  exact bapplyCaching_at hK hr hi hst h hh hg (anc.drop n) n n root (History.removeUpper c n) rfl
    (fun q hq => hnt q (List.mem_of_mem_drop hq)) (fun _ => rfl) h3 h2 (hc.removeUpper n)

/-- A torn file cannot be applied. -/
theorem torn_err (hr : BReach o (storeOps k).ops st store torn) (p : Props) (hp : p ∈ torn) (x : S) : bcompose k.ops st.dir [p] x = .err := by
  have hlaw := storeOps_lawful k
  obtain ⟨ist, hs⟩ := hr.sim hlaw
  obtain ⟨e, he, rfl⟩ := hs.logged p hp
  obtain ⟨f, b, _, g2, g3, g4, _, g5⟩ := hs.files e he
  obtain ⟨n, hn, g5⟩ := g5 hp
  exact bcompose_torn g5 (file_torn hlaw g2 g3 g4 n hn) [] x

/-- What is loaded is a version of the file. -/
theorem bloadC_version (hK : RoughC k diffs Ok K Edits Fine Alike) (hr : BReach o (storeOps k).ops st store torn)
    (hi : ∀ e ∈ store, ∃ s, Version o k Ok K Alike st store e s ∧ Resp k Ok K Alike e.2 s) (hst : ∀ e ∈ store, Ok e.2.1) (h : Hist)
    (hh : st.history = .ok h) (hc : CacheV o k Ok K Alike st store torn c) (e : Props × Stored S) (he : e ∈ store) :
    (∀ y, bloadC o k.ops st.dir c h e.1 = .ok y → e.1 ∉ torn ∧ ¬ Lost o store e.1 ∧ Version o k Ok K Alike st store e y) ∧
      (e.1 ∉ torn → ¬ Lost o store e.1 → ∃ y, bloadC o k.ops st.dir c h e.1 = .ok y) ∧
      (e.1 ∈ torn ∨ Lost o store e.1 → bloadC o k.ops st.dir c h e.1 = .err) := by
  have hlaw := storeOps_lawful k
  obtain ⟨ist, hs⟩ := hr.sim hlaw
  have hhi : ist.history = .ok h := by rw [← hs.history]; exact hh
  have key : ∀ rev, ancestorsRev h e.1 o.maxPhase o.cumulative.isSome = .ok rev →
      (∀ y, bapplyForLoad o k.ops st.dir rev.reverse c = .ok y → e.1 ∉ torn ∧ Version o k Ok K Alike st store e y) ∧
      (e.1 ∉ torn → ∃ y, bapplyForLoad o k.ops st.dir rev.reverse c = .ok y) ∧
      (e.1 ∈ torn → bapplyForLoad o k.ops st.dir rev.reverse c = .err) := by
    intro rev hrev
    obtain ⟨hg, hclean⟩ := chain_good hr h hh e he rev hrev
    obtain ⟨n, root, h1, h2, h3, h4⟩ := getCachedItem_at hK hr h hh hg hc
    have h1' : getCachedItem k.ops.src c rev.reverse o.maxPhase = .ok (root, rev.reverse.drop n) := h1
    have hload : bapplyForLoad o k.ops st.dir rev.reverse c = bcompose k.ops st.dir (rev.reverse.drop n) root := by
      unfold bapplyForLoad
      rw [h1', Res.bind_ok]
    obtain ⟨t, rfl⟩ := ancestorsRev_head _ _ _ _ _ hrev
    have hlast : (e.1 :: t).reverse = t.reverse ++ [e.1] := by simp
    have good : e.1 ∉ torn → ∃ y, bapplyForLoad o k.ops st.dir (e.1 :: t).reverse c = .ok y ∧ Version o k Ok K Alike st store e y := by
      intro ht
      have hnt : ∀ q ∈ (e.1 :: t).reverse.drop n, q ∉ torn := by
        intro q hq hqt
        have := hclean q (List.mem_reverse.1 (List.mem_of_mem_drop hq)) hqt
        rw [this] at hqt
        exact ht hqt
      obtain ⟨⟨x, hx1, hx2⟩, _⟩ := bapplyCaching_at hK hr hi hst h hh hg _ n (o.maxPhase) root c rfl hnt (fun h => absurd h (Nat.lt_irrefl _)) h3 h2 hc
      rw [bapplyCaching_result] at hx1
      refine ⟨x, by rw [hload, hx1], hx2.ok, ?_, hx2.src, fun h' hh' rev' hrev' q hq => ?_⟩
      · obtain ⟨y, hy, hxy⟩ := hx2.alike
        rw [List.take_length] at hy
        have hlen : (e.1 :: t).reverse[t.length]? = some e.1 := by rw [hlast, List.getElem?_append_right (by simp)]; simp
        obtain ⟨e', he', heq, _, _, hcomp⟩ := hg t.length e.1 hlen
        have : e' = e := store_unique hr e' he' e he heq
        subst this
        have htl : (e'.1 :: t).reverse.take (t.length + 1) = (e'.1 :: t).reverse := List.take_of_length_le (by simp)
        rw [htl] at hcomp
        rw [hcomp ht] at hy
        cases hy
        exact hxy
      · rw [hh] at hh'
        cases hh'
        rw [hrev] at hrev'
        cases hrev'
        exact hx2.kept q (by rw [List.take_length]; exact List.mem_reverse.2 hq)
    have bad : e.1 ∈ torn → bapplyForLoad o k.ops st.dir (e.1 :: t).reverse c = .err := by
      intro ht
      rw [hload]
      have hn : n ≠ (e.1 :: t).reverse.length := by
        intro hn
        have hne : n = t.length + 1 := by rw [hn]; simp
        exact h4 t.length hne e.1 (by rw [hlast, List.getElem?_append_right (by simp)]; simp) ht
      have hle : n ≤ t.reverse.length := by
        simp only [List.length_reverse, List.length_cons] at hn h2 ⊢
        omega
      have htk : (e.1 :: t).reverse.take t.length = t.reverse := by
        rw [hlast, List.take_append_of_le_length (by simp)]
        exact List.take_of_length_le (by simp)
      have hg' := hg.take t.length
      rw [htk] at hg'
      have hnt : ∀ q ∈ t.reverse.drop n, q ∉ torn := by
        intro q hq hqt
        have hqm : q ∈ t.reverse := List.mem_of_mem_drop hq
        have := hclean q (List.mem_cons_of_mem _ (List.mem_reverse.1 hqm)) hqt
        subst this
        obtain ⟨j, hj, hjq⟩ := List.getElem_of_mem hqm
        obtain ⟨_, _, _, hrev', _⟩ := hg j e.1 (by rw [hlast, List.getElem?_append_left hj, List.getElem?_eq_getElem hj, hjq])
        rw [hrev] at hrev'
        have hlen := congrArg List.length (Res.ok.inj hrev')
        simp only [List.length_reverse, List.length_take, List.length_cons] at hlen hj
        omega
      have hpre : (e.1 :: t).reverse.take n = t.reverse.take n := by
        rw [hlast, List.take_append_of_le_length hle]
      have h3' : At k Ok K Alike st store t.reverse n root :=
        ⟨h3.ok, h3.src, by rw [← hpre]; exact h3.kept, by rw [← hpre]; exact h3.alike⟩
      obtain ⟨⟨x, hx1, _⟩, _⟩ := bapplyCaching_at hK hr hi hst h hh hg' _ n (o.maxPhase) root c rfl hnt (fun h => absurd h (Nat.lt_irrefl _)) h3'
        hle hc
      rw [bapplyCaching_result] at hx1
      rw [hlast, List.drop_append_of_le_length hle, bcompose_append, hx1, Res.bind_ok]
      exact torn_err hr e.1 ht x
    refine ⟨fun y hy => ?_, fun ht => ?_, bad⟩
    · by_cases ht : e.1 ∈ torn
      · rw [bad ht] at hy
        cases hy
      · obtain ⟨y', hy', hv⟩ := good ht
        rw [hy] at hy'
        cases hy'
        exact ⟨ht, hv⟩
    · obtain ⟨y, hy, _⟩ := good ht
      exact ⟨y, hy⟩
  have han : ∀ {y}, bloadC o k.ops st.dir c h e.1 = .ok y → ∃ rev, ancestorsRev h e.1 o.maxPhase o.cumulative.isSome = .ok rev ∧
      bapplyForLoad o k.ops st.dir rev.reverse c = .ok y := by
    intro y hy
    unfold bloadC at hy
    rw [hs.ideal.inv.analyze_file e he] at hy
    simp only [Res.bind_ok] at hy
    exact bind_inv hy
  refine ⟨fun y hy => ?_, fun ht hnl => ?_, fun htl => ?_⟩
  · obtain ⟨rev, hrev, hy⟩ := han hy
    obtain ⟨g1, g2⟩ := (key rev hrev).1 y hy
    refine ⟨g1, fun hlo => ?_, g2⟩
    rw [lost_no_chain hs.ideal h hhi e he hlo] at hrev
    cases hrev
  · rcases hs.ideal.loads hlaw.ops h hhi e he with ⟨rev, hrev, _⟩ | hlo
    · obtain ⟨y, hy⟩ := (key rev hrev).2.1 ht
      refine ⟨y, ?_⟩
      unfold bloadC
      rw [hs.ideal.inv.analyze_file e he]
      simp only [Res.bind_ok]
      rw [hrev, Res.bind_ok]
      exact hy
    · exact absurd hlo hnl
  · unfold bloadC
    rw [hs.ideal.inv.analyze_file e he]
    simp only [Res.bind_ok]
    by_cases hlo : Lost o store e.1
    · rw [lost_no_chain hs.ideal h hhi e he hlo]
      rfl
    · rcases hs.ideal.loads hlaw.ops h hhi e he with ⟨rev, hrev, _⟩ | hlo'
      · rw [hrev, Res.bind_ok]
        exact (key rev hrev).2.2 (htl.resolve_right hlo)
      · exact absurd hlo' hlo

end
end Verif.History
