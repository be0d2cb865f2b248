import Verif.Model.ArchivePipe
import Verif.Props.Archive
/-! # The threads of the archiver: property C46 -/
namespace Verif.Archive
open Codec VarInt

variable {T H : Type}

/-- The files whose data is there; an error if something is missing. -/
def present : List (String × Option Bytes) → Res (List (String × Bytes))
  | [] => .ok []
  | (p, some d) :: r => (present r).map fun l => (p, d) :: l
  | (_, none) :: _ => .err

def enum (dec : List (String × Option Bytes)) : List (Nat × String × Option Bytes) := dec.zipIdx.map fun f => (f.2, f.1)

def asFed (x : Nat × String × Bytes) : Nat × String × Option Bytes := (x.1, x.2.1, some x.2.2)

theorem mem_enum {dec : List (String × Option Bytes)} {i : Nat} {x : String × Option Bytes} : (i, x) ∈ enum dec ↔ dec[i]? = some x := by
  unfold enum
  rw [List.mem_map]
  constructor
  · rintro ⟨⟨y, j⟩, h, he⟩
    cases he
    have := List.mem_zipIdx_iff_getElem?.1 h
    exact this
  · intro h
    exact ⟨(x, i), List.mem_zipIdx_iff_getElem?.2 h, rfl⟩

theorem map_enum (dec : List (String × Option Bytes)) : (enum dec).map (fun x => x.2) = dec := by
  unfold enum
  rw [List.map_map]
  exact List.zipIdx_map_fst 0 dec

theorem present_fed (l : List (Nat × String × Bytes)) : present ((l.map asFed).map fun x => x.2) = .ok (l.map fun x => x.2) := by
  induction l with
  | nil => rfl
  | cons x r ih =>
    simp only [List.map_cons]
    unfold asFed at ih ⊢
    simp only [present]
    rw [ih]
    rfl

theorem present_missing (l : List (Nat × String × Bytes)) (i : Nat) (p : String) (r : List (Nat × String × Option Bytes)) :
    present ((l.map asFed ++ (i, p, none) :: r).map fun x => x.2) = .err := by
  induction l with
  | nil => rfl
  | cons x l ih =>
    simp only [List.map_cons, List.cons_append]
    unfold asFed at ih ⊢
    simp only [present]
    rw [ih]
    rfl

/-- The queue of the hashing thread. -/
def Hashing (F : Fns T H) (files : List (String × Bytes)) (s : St T H) : Prop :=
  (s.ended = false ∧ s.hashCh = none ∧ ∃ q : List (String × Bytes), s.queue = q.map some ∧ s.hasher ++ hashInput q = hashInput files) ∨
  (s.ended = true ∧ s.todo = [] ∧ s.items = [] ∧
    ((s.hashCh = none ∧ ∃ q : List (String × Bytes), s.queue = q.map some ++ [none] ∧ s.hasher ++ hashInput q = hashInput files) ∨
     (s.queue = [] ∧ s.hashCh = some (F.hash (hashInput files)))))

/-- What holds in every state; `dec` is what the archiving thread will get, `fed` what it got. -/
structure Inv (F : Fns T H) (dec : List (String × Option Bytes)) (s : St T H) : Prop where
  jobs : ∀ i b, (i, b) ∈ s.unread ∨ (i, b) ∈ s.decJobs → ∃ p, dec[i]? = some (p, F.decompress b)
  raw : ∀ i o, s.rawCh i = some o → ∃ p, dec[i]? = some (p, o)
  conv : ∀ i p d, (i, p, d) ∈ s.convJobs → dec[i]? = some (p, some d)
  convd : ∀ i t, s.convCh i = some t → ∃ p d, dec[i]? = some (p, some d) ∧ t = F.converter p d
  fed : ∃ fed done rest, fed.map asFed ++ rest = enum dec ∧ s.todo = rest.map (fun x => (x.1, x.2.1)) ∧ fed = done ++ s.items ∧
    s.btree = insertAll ((done.map fun x => x.2).map fun f => (f.1, (F.converter f.1 f.2, f.2))) [] ∧
    Hashing F (fed.map fun x => x.2) s
  out : ∀ r, s.out = some r → r = (present dec).map (archiveAll F)
  waitRaw : ∀ i p, (i, p) ∈ s.todo → (∃ b, (i, b) ∈ s.unread) ∨ (∃ b, (i, b) ∈ s.decJobs) ∨ s.rawCh i ≠ none
  waitConv : ∀ i p d, (i, p, d) ∈ s.items → (i, p, d) ∈ s.convJobs ∨ s.convCh i ≠ none

theorem send_same {A : Type} (ch : Nat → Option A) (i : Nat) (a : A) : send ch i a i = some a := by unfold send; rw [if_pos rfl]

theorem send_ne {A : Type} (ch : Nat → Option A) {i j : Nat} (a : A) (h : j ≠ i) : send ch i a j = ch j := by unfold send; rw [if_neg h]

theorem send_mono {A : Type} {ch : Nat → Option A} {i j : Nat} {a : A} (h : ch j ≠ none) : send ch i a j ≠ none := by
  unfold send
  split
  · exact fun h => nomatch h
  · exact h

theorem hashInput_append (a b : List (String × Bytes)) : hashInput (a ++ b) = hashInput a ++ hashInput b := by
  unfold hashInput; rw [List.flatMap_append]

theorem hashInput_single (p : String) (d : Bytes) : hashInput [(p, d)] = strBytes p ++ d := by
  unfold hashInput; simp

theorem insertAll_append {V : Type} (a b : List (String × V)) (m : List (String × V)) :
    insertAll (a ++ b) m = insertAll b (insertAll a m) := by unfold insertAll; rw [List.foldl_append]

theorem Inv.step {F : Fns T H} {dec : List (String × Option Bytes)} {s s' : St T H} (hi : Inv F dec s) (h : Step F s s') :
    Inv F dec s' := by
  obtain ⟨hjobs, hraw, hconv, hconvd, ⟨fed, done, rest, hf1, hf2, hf3, hf4, hf5⟩, hout, hwr, hwc⟩ := hi
  cases h with
  | @hand i b r h =>
    refine ⟨?_, hraw, hconv, hconvd, ⟨fed, done, rest, hf1, hf2, hf3, hf4, hf5⟩, hout, ?_, hwc⟩
    · intro j c hj
      apply hjobs
      rw [h]
      simp only [List.mem_append, List.mem_cons, List.not_mem_nil, or_false] at hj ⊢
      rcases hj with hj | hj | hj
      · exact .inl (.inr hj)
      · exact .inr hj
      · exact .inl (.inl hj)
    · intro j p hj
      have := hwr j p hj
      rw [h] at this
      simp only [List.mem_cons, List.mem_append, List.not_mem_nil, or_false] at this ⊢
      rcases this with ⟨c, hc | hc⟩ | ⟨c, hc⟩ | hc
      · exact .inr (.inl ⟨c, .inr hc⟩)
      · exact .inl ⟨c, hc⟩
      · exact .inr (.inl ⟨c, .inl hc⟩)
      · exact .inr (.inr hc)
  | @decompress i b l r h =>
    refine ⟨?_, ?_, hconv, hconvd, ⟨fed, done, rest, hf1, hf2, hf3, hf4, hf5⟩, hout, ?_, hwc⟩
    · intro j c hj
      apply hjobs
      rw [h]
      simp only [List.mem_append, List.mem_cons] at hj ⊢
      rcases hj with hj | hj | hj
      · exact .inl hj
      · exact .inr (.inl hj)
      · exact .inr (.inr (.inr hj))
    · intro j o hj
      by_cases hji : j = i
      · subst hji
        simp only [send_same, Option.some.injEq] at hj
        subst hj
        exact hjobs j b (.inr (by rw [h]; simp))
      · simp only [send_ne _ _ hji] at hj
        exact hraw j o hj
    · intro j p hj
      by_cases hji : j = i
      · subst hji
        exact .inr (.inr (by simp only [send_same]; exact fun h => nomatch h))
      · rcases hwr j p hj with ⟨c, hc⟩ | ⟨c, hc⟩ | hc
        · exact .inl ⟨c, hc⟩
        · refine .inr (.inl ⟨c, ?_⟩)
          rw [h] at hc
          simp only [List.mem_append, List.mem_cons, Prod.mk.injEq] at hc ⊢
          rcases hc with hc | ⟨hc, _⟩ | hc
          · exact .inl hc
          · exact absurd hc hji
          · exact .inr hc
        · exact .inr (.inr (send_mono hc))
  | @archive i p d r ho h hc =>
    have hrest : ∃ o rest', rest = (i, p, o) :: rest' ∧ r = rest'.map fun x => (x.1, x.2.1) := by
      rw [h] at hf2
      cases rest with
      | nil => cases hf2
      | cons x rest' =>
        obtain ⟨j, q, o⟩ := x
        rw [List.map_cons] at hf2
        simp only [List.cons.injEq, Prod.mk.injEq] at hf2
        obtain ⟨⟨rfl, rfl⟩, rfl⟩ := hf2
        exact ⟨o, rest', rfl, rfl⟩
    obtain ⟨o, rest', rfl, rfl⟩ := hrest
    have hdec : dec[i]? = some (p, o) := by
      rw [← mem_enum, ← hf1]; simp
    have ho' : o = some d := by
      obtain ⟨q, hq⟩ := hraw i _ hc
      rw [hdec] at hq
      cases hq
      rfl
    subst ho'
    refine ⟨hjobs, hraw, ?_, hconvd, ⟨fed ++ [(i, p, d)], done, rest', ?_, rfl, ?_, hf4, ?_⟩, hout, ?_, ?_⟩
    · intro j q e hj
      simp only [List.mem_append, List.mem_cons, List.not_mem_nil, or_false] at hj
      rcases hj with hj | hj
      · exact hconv j q e hj
      · cases hj
        exact hdec
    · rw [← hf1]; simp [asFed]
    · rw [hf3]; simp
    · rcases hf5 with ⟨he, hn, q, hq1, hq2⟩ | ⟨he, ht, _⟩
      · refine .inl ⟨he, hn, q ++ [(p, d)], ?_, ?_⟩
        · simp only; rw [hq1]; simp
        · simp only
          rw [hashInput_append, ← List.append_assoc, hq2, List.map_append, hashInput_append]
          rfl
      · rw [ht] at h; cases h
    · intro j q hj
      exact hwr j q (by rw [h]; exact List.mem_cons_of_mem _ hj)
    · intro j q e hj
      simp only [List.mem_append, List.mem_cons, List.not_mem_nil, or_false] at hj ⊢
      rcases hj with hj | hj
      · rcases hwc j q e hj with h1 | h1
        · exact .inl (.inl h1)
        · exact .inr h1
      · exact .inl (.inr hj)
  | @fail i p r ho h hc =>
    refine ⟨hjobs, hraw, hconv, hconvd, ⟨fed, done, rest, hf1, hf2, hf3, hf4, hf5⟩, ?_, hwr, hwc⟩
    intro x hx
    cases hx
    have hrest : ∃ o rest', rest = (i, p, o) :: rest' := by
      rw [h] at hf2
      cases rest with
      | nil => cases hf2
      | cons x rest' =>
        obtain ⟨j, q, o⟩ := x
        rw [List.map_cons] at hf2
        simp only [List.cons.injEq, Prod.mk.injEq] at hf2
        obtain ⟨⟨rfl, rfl⟩, rfl⟩ := hf2
        exact ⟨o, rest', rfl⟩
    obtain ⟨o, rest', rfl⟩ := hrest
    have hdec : dec[i]? = some (p, o) := by
      rw [← mem_enum, ← hf1]; simp
    obtain ⟨q, hq⟩ := hraw i _ hc
    rw [hdec] at hq
    cases hq
    rw [← map_enum dec, ← hf1, present_missing]
    rfl
  | @convert i p d l r h =>
    refine ⟨hjobs, hraw, ?_, ?_, ⟨fed, done, rest, hf1, hf2, hf3, hf4, hf5⟩, hout, hwr, ?_⟩
    · intro j q e hj
      apply hconv
      rw [h]
      simp only [List.mem_append, List.mem_cons] at hj ⊢
      rcases hj with hj | hj
      · exact .inl hj
      · exact .inr (.inr hj)
    · intro j t hj
      by_cases hji : j = i
      · subst hji
        simp only [send_same, Option.some.injEq] at hj
        exact ⟨p, d, hconv _ _ _ (by rw [h]; simp), hj.symm⟩
      · simp only [send_ne _ _ hji] at hj
        exact hconvd j t hj
    · intro j q e hj
      by_cases hji : j = i
      · subst hji
        exact .inr (by simp only [send_same]; exact fun h => nomatch h)
      · rcases hwc j q e hj with h1 | h1
        · rw [h] at h1
          simp only [List.mem_append, List.mem_cons, Prod.mk.injEq] at h1 ⊢
          rcases h1 with h1 | ⟨h1, _⟩ | h1
          · exact .inl (.inl h1)
          · exact absurd h1 hji
          · exact .inl (.inr h1)
        · exact .inr (send_mono h1)
  | @collect i p d r t ho ht h hc =>
    have hdec : dec[i]? = some (p, some d) := by
      rw [← mem_enum, ← hf1, hf3, h]; simp [asFed]
    have ht' : t = F.converter p d := by
      obtain ⟨q, e, h1, h2⟩ := hconvd i t hc
      rw [hdec] at h1
      cases h1
      exact h2
    refine ⟨hjobs, hraw, hconv, hconvd, ⟨fed, done ++ [(i, p, d)], rest, hf1, hf2, ?_, ?_, ?_⟩, hout, hwr, ?_⟩
    · rw [hf3, h]; simp
    · simp only
      rw [hf4, List.map_append, List.map_append, insertAll_append, ht']
      rfl
    · rcases hf5 with ⟨he, hn, hq⟩ | ⟨he, _, hi, _⟩
      · exact .inl ⟨he, hn, hq⟩
      · rw [hi] at h; cases h
    · intro j q e hj
      exact hwc j q e (by rw [h]; exact List.mem_cons_of_mem _ hj)
  | finish ho ht hi he =>
    refine ⟨hjobs, hraw, hconv, hconvd, ⟨fed, done, rest, hf1, hf2, hf3, hf4, ?_⟩, hout, hwr, hwc⟩
    rcases hf5 with ⟨_, hn, q, hq1, hq2⟩ | ⟨he', _⟩
    · refine .inr ⟨rfl, ht, hi, .inl ⟨hn, q, ?_, hq2⟩⟩
      simp only; rw [hq1]
    · rw [he] at he'; cases he'
  | @hash p d r h =>
    refine ⟨hjobs, hraw, hconv, hconvd, ⟨fed, done, rest, hf1, hf2, hf3, hf4, ?_⟩, hout, hwr, hwc⟩
    rcases hf5 with ⟨he, hn, q, hq1, hq2⟩ | ⟨he, ht, hi, ⟨hn, q, hq1, hq2⟩ | ⟨hq, _⟩⟩
    · rw [h] at hq1
      cases q with
      | nil => cases hq1
      | cons x q =>
        rw [List.map_cons, List.cons.injEq] at hq1
        obtain ⟨hx, rfl⟩ := hq1
        cases hx
        refine .inl ⟨he, hn, q, rfl, ?_⟩
        rw [← hq2, ← List.singleton_append (l := q), hashInput_append, hashInput_single]
        simp
    · rw [h] at hq1
      cases q with
      | nil => cases hq1
      | cons x q =>
        rw [List.map_cons, List.cons_append, List.cons.injEq] at hq1
        obtain ⟨hx, rfl⟩ := hq1
        cases hx
        refine .inr ⟨he, ht, hi, .inl ⟨hn, q, rfl, ?_⟩⟩
        rw [← hq2, ← List.singleton_append (l := q), hashInput_append, hashInput_single]
        simp
    · rw [hq] at h; cases h
  | @hashEnd r h hh =>
    refine ⟨hjobs, hraw, hconv, hconvd, ⟨fed, done, rest, hf1, hf2, hf3, hf4, ?_⟩, hout, hwr, hwc⟩
    rcases hf5 with ⟨he, hn, q, hq1, hq2⟩ | ⟨he, ht, hi, ⟨hn, q, hq1, hq2⟩ | ⟨hq, _⟩⟩
    · rw [h] at hq1
      cases q <;> simp at hq1
    · rw [h] at hq1
      cases q with
      | cons x q => simp at hq1
      | nil =>
        simp only [List.map_nil, List.nil_append, List.cons.injEq, true_and] at hq1
        subst hq1
        refine .inr ⟨he, ht, hi, .inr ⟨rfl, ?_⟩⟩
        simp only
        rw [← hq2]
        unfold hashInput
        simp
    · rw [hq] at h; cases h
  | @done x ho he hh =>
    refine ⟨hjobs, hraw, hconv, hconvd, ⟨fed, done, rest, hf1, hf2, hf3, hf4, hf5⟩, ?_, hwr, hwc⟩
    intro r hr
    cases hr
    rcases hf5 with ⟨he', _⟩ | ⟨_, ht, hi, ⟨hn, _⟩ | ⟨_, hc⟩⟩
    · rw [he] at he'; cases he'
    · rw [hh] at hn; cases hn
    · rw [hh] at hc
      cases hc
      have hr : rest = [] := by rw [ht] at hf2; exact (List.map_eq_nil_iff.1 hf2.symm)
      subst hr
      rw [hi, List.append_nil] at hf3
      subst hf3
      rw [List.append_nil] at hf1
      rw [← map_enum dec, ← hf1, present_fed]
      simp only [Res.map_ok]
      congr 1
      unfold archiveAll
      rw [hf4]
      congr 1
      unfold insertAll
      rw [List.foldl_map]

theorem Inv.steps {F : Fns T H} {dec : List (String × Option Bytes)} {s s' : St T H} (hi : Inv F dec s) (h : Steps F s s') :
    Inv F dec s' := by
  induction h with
  | refl => exact hi
  | tail _ h2 ih => exact ih.step h2

/-- While there is no result, some thread can go on. -/
theorem Inv.progress {F : Fns T H} {dec : List (String × Option Bytes)} {s : St T H} (hi : Inv F dec s) (ho : s.out = none) :
    ∃ s', Step F s s' := by
  obtain ⟨hjobs, hraw, hconv, hconvd, ⟨fed, done, rest, hf1, hf2, hf3, hf4, hf5⟩, hout, hwr, hwc⟩ := hi
  cases ht : s.todo with
  | cons x r =>
    obtain ⟨i, p⟩ := x
    rcases hwr i p (by rw [ht]; exact List.mem_cons_self) with ⟨b, hb⟩ | ⟨b, hb⟩ | hr
    · cases hu : s.unread with
      | nil => rw [hu] at hb; cases hb
      | cons y u => exact ⟨_, .hand (i := y.1) (b := y.2) hu⟩
    · obtain ⟨l, r', hl⟩ := List.append_of_mem hb
      exact ⟨_, .decompress hl⟩
    · cases hc : s.rawCh i with
      | none => exact absurd hc hr
      | some o =>
        cases o with
        | none => exact ⟨_, .fail ho ht hc⟩
        | some d => exact ⟨_, .archive ho ht hc⟩
  | nil =>
    cases hitems : s.items with
    | cons x r =>
      obtain ⟨i, p, d⟩ := x
      rcases hwc i p d (by rw [hitems]; exact List.mem_cons_self) with h1 | h1
      · obtain ⟨l, r', hl⟩ := List.append_of_mem h1
        exact ⟨_, .convert hl⟩
      · cases hc : s.convCh i with
        | none => exact absurd hc h1
        | some t => exact ⟨_, .collect ho ht hitems hc⟩
    | nil =>
      rcases hf5 with ⟨he, _⟩ | ⟨he, _, _, ⟨hn, q, hq1, hq2⟩ | ⟨hq, hc⟩⟩
      · exact ⟨_, .finish ho ht hitems he⟩
      · cases q with
        | nil => exact ⟨_, .hashEnd (by simpa using hq1) hn⟩
        | cons x q => exact ⟨_, .hash (p := x.1) (d := x.2) (by simpa using hq1)⟩
      · exact ⟨_, .done ho he hc⟩

/-- the number of steps that are left at most -/
def St.weight (s : St T H) : Nat :=
  2 * s.unread.length + s.decJobs.length + 4 * s.todo.length + s.convJobs.length + s.items.length + s.queue.length +
    (if s.ended then 0 else 2) + (match s.out with | none => 1 | some _ => 0)

theorem Step.decreases {F : Fns T H} {s s' : St T H} (h : Step F s s') : s'.weight < s.weight := by
  cases h with
  | hand h => unfold St.weight; simp only [h, List.length_append, List.length_cons, List.length_nil]; omega
  | decompress h => unfold St.weight; simp only [h, List.length_append, List.length_cons]; omega
  | archive ho h hc => unfold St.weight; simp only [h, List.length_append, List.length_cons, List.length_nil]; omega
  | fail ho h hc => unfold St.weight; simp only [ho]; omega
  | convert h => unfold St.weight; simp only [h, List.length_append, List.length_cons]; omega
  | collect ho ht h hc => unfold St.weight; simp only [h, List.length_cons]; omega
  | finish ho ht hi he => unfold St.weight; simp only [he, List.length_append, List.length_cons, List.length_nil]; simp; omega
  | hash h => unfold St.weight; simp only [h, List.length_cons]; omega
  | hashEnd h hh => unfold St.weight; simp only [h, List.length_cons]; omega
  | done ho he hh => unfold St.weight; simp only [ho]; omega

theorem inv_initRead (F : Fns T H) (files : List (String × Bytes)) :
    Inv F (files.map fun f => (f.1, F.decompress f.2)) (initRead files : St T H) := by
  have hmem : ∀ i (b : Bytes), (i, b) ∈ (initRead files : St T H).unread ↔ ∃ p, files[i]? = some (p, b) := by
    intro i b
    unfold initRead
    simp only [List.mem_map]
    constructor
    · rintro ⟨⟨⟨p, c⟩, j⟩, h, he⟩
      cases he
      exact ⟨p, List.mem_zipIdx_iff_getElem?.1 h⟩
    · rintro ⟨p, h⟩
      exact ⟨((p, b), i), List.mem_zipIdx_iff_getElem?.2 h, rfl⟩
  refine ⟨?_, fun _ _ h => (nomatch h), fun _ _ _ h => (nomatch h), fun _ _ h => (nomatch h),
    ⟨[], [], enum (files.map fun f => (f.1, F.decompress f.2)), rfl, ?_, rfl, rfl, .inl ⟨rfl, rfl, [], rfl, rfl⟩⟩,
    fun _ h => (nomatch h), ?_, fun _ _ _ h => (nomatch h)⟩
  · rintro i b (h | h)
    · obtain ⟨p, hp⟩ := (hmem i b).1 h
      exact ⟨p, by rw [List.getElem?_map, hp]; rfl⟩
    · cases h
  · unfold initRead enum
    simp only [List.zipIdx_map, List.map_map]
    rfl
  · intro i p h
    unfold initRead at h
    simp only [List.mem_map] at h
    obtain ⟨⟨⟨q, c⟩, j⟩, h, he⟩ := h
    cases he
    exact .inl ⟨c, (hmem _ _).2 ⟨q, List.mem_zipIdx_iff_getElem?.1 h⟩⟩

theorem inv_initDir (F : Fns T H) (files : List (String × Bytes)) :
    Inv F (files.map fun f => (f.1, some f.2)) (initDir files : St T H) := by
  refine ⟨?_, ?_, fun _ _ _ h => (nomatch h), fun _ _ h => (nomatch h),
    ⟨[], [], enum (files.map fun f => (f.1, some f.2)), rfl, ?_, rfl, rfl, .inl ⟨rfl, rfl, [], rfl, rfl⟩⟩,
    fun _ h => (nomatch h), ?_, fun _ _ _ h => (nomatch h)⟩
  · rintro i b (h | h) <;> cases h
  · intro i o h
    unfold initDir at h
    simp only [Option.map_eq_some_iff] at h
    obtain ⟨f, h1, rfl⟩ := h
    exact ⟨f.1, by rw [List.getElem?_map, h1]; rfl⟩
  · unfold initDir initRead enum
    simp only [List.zipIdx_map, List.map_map]
    rfl
  · intro i p h
    unfold initDir initRead at h
    simp only [List.mem_map] at h
    obtain ⟨⟨⟨q, c⟩, j⟩, h, he⟩ := h
    cases he
    have := List.mem_zipIdx_iff_getElem?.1 h
    refine .inr (.inr ?_)
    unfold initDir
    simp only at this ⊢
    rw [this]
    exact fun h => nomatch h

theorem present_read (F : Fns T H) (files : List (String × Bytes)) :
    present (files.map fun f => (f.1, F.decompress f.2)) = decompressAll F files := by
  induction files with
  | nil => rfl
  | cons f r ih =>
    obtain ⟨p, c⟩ := f
    rw [List.map_cons]
    unfold decompressAll
    cases h : F.decompress c with
    | none => rfl
    | some d => unfold present; rw [ih]; rfl

theorem present_dir (files : List (String × Bytes)) : present (files.map fun f => (f.1, some f.2)) = .ok files := by
  induction files with
  | nil => rfl
  | cons f r ih =>
    rw [List.map_cons]
    unfold present
    rw [ih]
    rfl

/-- **C46, reading an archive.** Whatever the order in which the threads work, the only result is that of the threads replaced by
their results: the files in the order of the archive, the hash of all of them in that order, an error if one of them is damaged. -/
theorem C46_read_schedule (F : Fns T H) (files : List (String × Bytes)) (s : St T H) (h : Steps F (initRead files) s) (r : Res (Data T H))
    (hr : s.out = some r) : r = (decompressAll F files).map (archiveAll F) := by
  rw [← present_read]
  exact ((inv_initRead F files).steps h).out r hr

/-- … and no thread waits forever. -/
theorem C46_read_progress (F : Fns T H) (files : List (String × Bytes)) (s : St T H) (h : Steps F (initRead files) s)
    (ho : s.out = none) : ∃ s', Step F s s' := ((inv_initRead F files).steps h).progress ho

/-- **C46, reading a directory.** -/
theorem C46_dir_schedule (F : Fns T H) (files : List (String × Bytes)) (s : St T H) (h : Steps F (initDir files) s) (r : Res (Data T H))
    (hr : s.out = some r) : r = .ok (archiveAll F files) := by
  have := ((inv_initDir F files).steps h).out r hr
  rw [present_dir] at this
  exact this

/-- … and no thread waits forever. -/
theorem C46_dir_progress (F : Fns T H) (files : List (String × Bytes)) (s : St T H) (h : Steps F (initDir files) s)
    (ho : s.out = none) : ∃ s', Step F s s' := ((inv_initDir F files).steps h).progress ho

/-- Every schedule comes to an end. -/
theorem C46_terminates (F : Fns T H) (run : Nat → St T H) : ¬ ∀ n, Step F (run n) (run (n + 1)) := by
  intro h
  have : ∀ n, (run n).weight + n ≤ (run 0).weight := by
    intro n
    induction n with
    | zero => exact Nat.le_refl _
    | succ n ih => have := (h n).decreases; omega
  have := this ((run 0).weight + 1)
  omega

/-- So there is a result, and by the theorems above it is the only one: any state that was reached can go on to a result. -/
theorem C46_read_result (F : Fns T H) (files : List (String × Bytes)) (s : St T H) (h : Steps F (initRead files) s) :
    ∃ s', Steps F s s' ∧ s'.out = some ((decompressAll F files).map (archiveAll F)) := by
  generalize hw : s.weight = w
  induction w using Nat.strongRecOn generalizing s with
  | _ w ih =>
    cases ho : s.out with
    | some r => exact ⟨s, .refl s, by rw [ho, C46_read_schedule F files s h r ho]⟩
    | none =>
      obtain ⟨s1, h1⟩ := C46_read_progress F files s h ho
      obtain ⟨s', h2, h3⟩ := ih _ (by rw [← hw]; exact h1.decreases) s1 (.tail h h1) rfl
      refine ⟨s', ?_, h3⟩
      clear ih h3
      induction h2 with
      | refl => exact .tail (.refl _) h1
      | tail _ h4 ih' => exact .tail ih' h4

/-- an example: two steps of a run -/
example : Steps sampleFns (initDir sampleFiles)
    { (initDir sampleFiles : St Nat Bytes) with
      todo := [(1, "src/b.json5"), (2, "src/sub/a.json5")], convJobs := [], items := [(0, "src/a.json5", [1, 2])],
      queue := [some ("src/a.json5", [1, 2])], convCh := send (fun _ => none) 0 2 } := by
  refine .tail (.tail (.refl _) (.archive (i := 0) (p := "src/a.json5") (d := [1, 2]) rfl rfl rfl)) ?_
  exact .convert (l := []) (r := []) (i := 0) (p := "src/a.json5") (d := [1, 2]) rfl

end Verif.Archive
