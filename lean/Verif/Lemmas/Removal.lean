import Verif.Spec.Removal
import Verif.Lemmas.Lost
import Verif.Lemmas.RemoverReach
/-! Helper lemmas: histories from which files have been removed. Beside the state with the removals runs one without them. -/
namespace Verif.Removal
open VarInt FileName FileHistory Phase History Remover

section
variable {S : Type}

/-! Directories -/

theorem nodup_write (d : Dir) (hd : (d.map (·.1)).Nodup) (n : Bytes) (f : File) : ((d.write n f).map (·.1)).Nodup := by
  by_cases hn : n ∈ d.map (·.1)
  · have he : (d.write n f).map (·.1) = d.map (·.1) := by
      clear hd
      induction d with
      | nil => simp at hn
      | cons e d ih =>
        obtain ⟨k, g⟩ := e
        rw [Dir.write]
        split
        · rfl
        · rename_i hk
          rw [List.map_cons, List.map_cons, ih]
          simp only [List.map_cons, List.mem_cons] at hn
          rcases hn with hn | hn
          · exact absurd hn.symm hk
          · exact hn
    rw [he]
    exact hd
  · rw [write_fresh d n f hn, List.map_append, List.nodup_append]
    refine ⟨hd, by simp, ?_⟩
    intro a ha b hb hab
    simp at hb
    subst hb
    subst hab
    exact hn ha

theorem read_remove (gone : List Props) (d : Dir) (n : Bytes) :
    (removeFiles gone d).read n = if n ∈ gone.map (·.filename) then none else d.read n := by
  split
  · rename_i hn
    refine read_none _ _ fun hm => ?_
    obtain ⟨e, he, rfl⟩ := List.mem_map.1 hm
    have := (List.mem_filter.1 he).2
    simp only [Bool.not_eq_eq_eq_not, Bool.not_true, decide_eq_false_iff_not] at this
    exact this hn
  · rename_i hn
    exact read_filter d (fun m => !decide (m ∈ gone.map (·.filename))) n (by simpa using hn)

theorem there_remove (gone : List Props) (d : Dir) (b : Option (Nat × Props)) (p : Props) :
    There ⟨removeFiles gone d, b⟩ p ↔ There ⟨d, b⟩ p ∧ p ∉ gone := by
  unfold There
  simp only [read_remove]
  constructor
  · rintro ⟨f, hf⟩
    split at hf
    · cases hf
    · rename_i hn
      exact ⟨⟨f, hf⟩, fun hm => hn (List.mem_map.2 ⟨p, hm, rfl⟩)⟩
  · rintro ⟨⟨f, hf⟩, hn⟩
    refine ⟨f, ?_⟩
    rw [if_neg, hf]
    intro hm
    obtain ⟨q, hq, he⟩ := List.mem_map.1 hm
    rw [filename_injective _ _ he] at hq
    exact hn hq

open Classical in
/-- The history of a directory that holds some of the files of a log. -/
theorem history_knows (d : Dir) (log : List (Props × S)) (hnames : ∀ n ∈ d.map (·.1), analyze n = .ok none ∨ ∃ e ∈ log, n = e.1.filename)
    (hfiles : ∀ e ∈ log, e.1.filename ∈ d.map (·.1)) (hana : ∀ e ∈ log, analyze e.1.filename = .ok (some e.1))
    (hrange : ∀ e ∈ log, InRange e.1) (hsorted : log.Pairwise (fun a b => key b.1 < key a.1)) :
    ∃ h, createHistory (d.map (·.1)) .empty = .ok h ∧ Knows h log := by
  let f : Bytes → Option Props := fun n => if h : ∃ e ∈ log, n = e.1.filename then some h.choose.1 else none
  have hf1 : ∀ e ∈ log, f e.1.filename = some e.1 := by
    intro e he
    have hex : ∃ e' ∈ log, e.1.filename = e'.1.filename := ⟨e, he, rfl⟩
    show (if h : ∃ e' ∈ log, e.1.filename = e'.1.filename then some h.choose.1 else none) = some e.1
    rw [dif_pos hex]
    rw [filename_injective _ _ hex.choose_spec.2.symm]
  have hf : ∀ n ∈ d.map (·.1), analyze n = .ok (f n) := by
    intro n hn
    by_cases hex : ∃ e ∈ log, n = e.1.filename
    · obtain ⟨e, he, rfl⟩ := hex
      rw [hf1 e he, hana e he]
    · rcases hnames n hn with h | h
      · rw [h]
        show _ = Res.ok (if h : ∃ e ∈ log, n = e.1.filename then some h.choose.1 else none)
        rw [dif_neg hex]
      · exact absurd h hex
  have hps : ∀ p, p ∈ (d.map (·.1)).filterMap f ↔ ∃ e ∈ log, e.1 = p := by
    intro p
    rw [List.mem_filterMap]
    constructor
    · rintro ⟨n, hn, hp⟩
      have : f n = (if h : ∃ e ∈ log, n = e.1.filename then some h.choose.1 else none) := rfl
      rw [this] at hp
      split at hp
      · rename_i hex
        exact ⟨hex.choose, hex.choose_spec.1, by simpa using hp⟩
      · cases hp
    · rintro ⟨e, he, rfl⟩
      exact ⟨e.1.filename, hfiles e he, hf1 e he⟩
  refine ⟨_, createHistory_fold _ f hf _, ?_⟩
  have hr : ∀ p ∈ (d.map (·.1)).filterMap f, InRange p := by
    intro p hp
    obtain ⟨e, he, rfl⟩ := (hps p).1 hp
    exact hrange e he
  obtain ⟨g1, g2⟩ := foldl_add _ hr .empty hwf_empty
  refine ⟨g1, fun c ord p => ?_⟩
  constructor
  · intro hp
    rcases g2 c ord p hp with ⟨h1, h2⟩ | h1
    · exact ⟨(hps p).1 h1, h2⟩
    · simp [hgetProps, FileHistory.History.empty, BMap.get] at h1
  · rintro ⟨he, hk⟩
    have hu : ∀ p ∈ (d.map (·.1)).filterMap f, ∀ q ∈ (d.map (·.1)).filterMap f, key p = key q → p = q := by
      intro p hp q hq hk
      obtain ⟨a, ha, rfl⟩ := (hps p).1 hp
      obtain ⟨b, hb, rfl⟩ := (hps q).1 hq
      rw [key_inj_of_sorted log hsorted a b ha hb hk]
    have := foldl_add_mem _ hr hu .empty p ((hps p).2 he)
    simp only [key, List.cons.injEq] at hk
    rw [hk.1, hk.2] at this
    exact this

/-! Chains -/

theorem dep_sibling {o : Opts} {log : List (Props × S)} (h : Hist) (hk : Knows h log) (p q : Props)
    (hc : o.cumulative.isSome = true) (hlen : p.order.length = o.maxPhase + 1) (base : List Nat) (k : Nat)
    (ho : p.order = base ++ [k + 1]) : Dep o log p q ↔ h.getProps p.prevCtl (base ++ [k]) = some q := by
  rw [hk.2]
  unfold Dep key
  simp only [List.cons.injEq]
  constructor
  · rintro ⟨h1, h2, ⟨_, _, b, j, h3, h4⟩ | ⟨h3, _⟩⟩
    · rw [ho] at h3
      have := List.append_inj' h3 rfl
      obtain ⟨rfl, h5⟩ := this
      simp at h5
      subst h5
      exact ⟨h1, h2, h4⟩
    · exact absurd ⟨hc, hlen, base, k, ho⟩ h3
  · rintro ⟨h1, h2, h3⟩
    exact ⟨h1, h2, .inl ⟨hc, hlen, base, k, ho, h3⟩⟩

theorem dep_parent {o : Opts} {log : List (Props × S)} (h : Hist) (hk : Knows h log) (p q : Props) (hp : p.order ≠ [])
    (hc : ¬ (o.cumulative.isSome = true ∧ p.order.length = o.maxPhase + 1) ∨ orderLast p = 0) :
    Dep o log p q ↔ 2 ≤ p.order.length ∧ h.getParent p = some q := by
  have hs := split_order p hp
  have hno : ¬ (o.cumulative.isSome = true ∧ p.order.length = o.maxPhase + 1 ∧ ∃ base k, p.order = base ++ [k + 1]) := by
    rintro ⟨h1, h2, b, k, h3⟩
    rcases hc with hc | hc
    · exact hc ⟨h1, h2⟩
    · rw [(base_last _ _ _ h3).2] at hc
      cases hc
  unfold FileHistory.History.getParent
  rw [hk.2]
  unfold Dep key
  simp only [List.cons.injEq]
  constructor
  · rintro ⟨h1, h2, ⟨h3, h4, b, j, h5, _⟩ | ⟨_, h4, k, h5⟩⟩
    · exact absurd ⟨h3, h4, b, j, h5⟩ hno
    · have hb := (base_last _ _ _ h5).1
      refine ⟨?_, h1, h2, hb.symm⟩
      rw [h5, List.length_append]
      have := List.length_pos_iff.2 h4
      simp; omega
  · rintro ⟨h0, h1, h2, h3⟩
    refine ⟨h1, h2, .inr ⟨hno, ?_, orderLast p, by rw [h3]; exact hs⟩⟩
    rw [h3]
    intro hb
    rw [hs, hb] at h0
    simp at h0

theorem needs_par {o : Opts} {log : List (Props × S)} (h : Hist) (hk : Knows h log) (n : Nat) (p : Props) (hn : p.order.length = n)
    (hp : p.order ≠ []) (hlen : p.order.length ≤ o.maxPhase + 1)
    (hc : ¬ (o.cumulative.isSome = true ∧ p.order.length = o.maxPhase + 1) ∨ orderLast p = 0) (t : List Props) (ht : par h p = .ok t)
    (q : Props) : q ∈ p :: t ↔ Needs o log p q := by
  induction n generalizing p t with
  | zero => exact absurd (List.length_eq_zero_iff.1 hn) hp
  | succ n ih =>
    have hkd := keyed_of_hwf h hk.1
    have hdep := fun r => dep_parent h hk p r hp hc
    by_cases h2 : 2 ≤ p.order.length
    · obtain ⟨r, t', hr, ht', rfl⟩ := par_cons h hkd p h2 t ht
      have hro := getParent_order h hkd p r hr
      have hrl : r.order.length = n := by rw [hro, List.length_dropLast]; omega
      have hih := ih r hrl (by intro h0; rw [h0] at hrl; simp at hrl; omega) (by omega) (.inl fun h0 => by omega) t' ht'
      rw [List.mem_cons, hih]
      constructor
      · rintro (rfl | h3)
        · exact .self _
        · exact .next _ r _ ((hdep r).2 ⟨h2, hr⟩) h3
      · intro h3
        cases h3 with
        | self => exact .inl rfl
        | next _ x _ hd hn =>
          have := ((hdep x).1 hd).2
          rw [hr] at this
          cases this
          exact .inr hn
    · rw [par_short h hkd p (by omega)] at ht
      cases ht
      simp only [List.mem_cons, List.not_mem_nil, or_false]
      constructor
      · rintro rfl; exact .self _
      · intro h3
        cases h3 with
        | self => rfl
        | next _ x _ hd hn => exact absurd ((hdep x).1 hd).1 h2

theorem needs_sib {o : Opts} {log : List (Props × S)} (h : Hist) (hk : Knows h log) (k : Nat) (p : Props) (hp : orderLast p = k)
    (hc : o.cumulative.isSome = true) (hlen : p.order.length = o.maxPhase + 1) (l t : List Props)
    (hl : siblings h (orderBase p) k p = .ok l) (ht : par h (l.getLastD p) = .ok t)
    (q : Props) : q ∈ p :: (l ++ t) ↔ Needs o log p q := by
  have hne : p.order ≠ [] := by intro h0; rw [h0] at hlen; simp at hlen
  induction k generalizing p l with
  | zero =>
    cases hl
    exact needs_par h hk _ p rfl hne (by omega) (.inr hp) t ht q
  | succ k ih =>
    rw [siblings] at hl
    cases hr : h.getProps p.prevCtl (orderBase p ++ [k]) with
    | none => rw [hr] at hl; cases hl
    | some r =>
      rw [hr] at hl
      simp only at hl
      have hs := split_order p hne
      rw [hp] at hs
      have hdep := fun x => dep_sibling (o := o) h hk p x hc hlen _ _ hs
      have hro := keyed_of_hwf h hk.1 _ _ _ hr
      obtain ⟨b1, b2⟩ := base_last _ _ _ hro
      have hrl : r.order.length = o.maxPhase + 1 := by
        rw [hro, ← hlen]
        conv_rhs => rw [hs]
        simp
      cases hm : siblings h (orderBase p) k r with
      | err => rw [hm] at hl; cases hl
      | panic => rw [hm] at hl; cases hl
      | ok m =>
        rw [hm] at hl
        cases hl
        rw [List.getLastD_cons] at ht
        have hih : q ∈ r :: (m ++ t) ↔ Needs o log r q := ih r b2 hrl m (by rw [b1]; exact hm) ht (by intro h0; rw [h0] at hrl; simp at hrl)
        rw [List.mem_cons, List.cons_append, hih]
        constructor
        · rintro (rfl | h3)
          · exact .self _
          · exact .next _ r _ ((hdep r).2 hr) h3
        · intro h3
          cases h3 with
          | self => exact .inl rfl
          | next _ x _ hd hn =>
            have := (hdep x).1 hd
            rw [hr] at this
            cases this
            exact .inr hn

/-- The chain of a file consists of the files it needs. -/
theorem needs_chain {o : Opts} {log : List (Props × S)} (h : Hist) (hk : Knows h log) (p : Props) (hp : p.order ≠ [])
    (hlen : p.order.length ≤ o.maxPhase + 1) (l : List Props) (hl : ancestorsRev h p o.maxPhase o.cumulative.isSome = .ok l)
    (q : Props) : q ∈ l ↔ Needs o log p q := by
  have hpos : 1 ≤ p.order.length := List.length_pos_iff.2 hp
  by_cases hcase : p.order.length - 1 = o.maxPhase ∧ o.cumulative.isSome = true
  · obtain ⟨h1, h2⟩ := hcase
    have hl' := hl
    rw [h2, ancestorsRev_cumulative h p hp _ h1] at hl'
    obtain ⟨sib, h3, h4⟩ := bind_ok_inv _ _ _ hl'
    obtain ⟨t, h5, h6⟩ := bind_ok_inv _ _ _ h4
    cases h6
    obtain ⟨s1, s2⟩ := siblings_order h (keyed_of_hwf h hk.1) (orderBase p) (orderLast p) p rfl
      (by rw [orderBase, List.length_dropLast]; omega) sib h3
    refine needs_sib h hk _ p rfl h2 (by omega) sib t h3 ?_ q
    unfold par
    rw [s2, show (orderBase p).length + 1 = p.order.length by rw [orderBase, List.length_dropLast]; omega]
    exact h5
  · rw [ancestorsRev_plain h p hp _ _ (.inl hcase)] at hl
    obtain ⟨t, h5, h6⟩ := bind_ok_inv _ _ _ hl
    cases h6
    exact needs_par h hk _ p rfl hp hlen (.inl fun h0 => hcase ⟨by omega, h0.1⟩) t h5 q

theorem ancestorsRev_total (h : Hist) (p : Props) (m : Nat) (cu : Bool) : ancestorsRev h p m cu ≠ .panic := by
  have hs : ∀ base k p, siblings h base k p ≠ .panic := by
    intro base k
    induction k with
    | zero => intro p hp; cases hp
    | succ k ih =>
      intro p hp
      rw [siblings] at hp
      split at hp
      · rename_i q _
        cases hr : siblings h base k q with
        | ok r => rw [hr] at hp; cases hp
        | err => rw [hr] at hp; cases hp
        | panic => exact ih q hr
      · cases hp
  have hpa : ∀ k p, parents h k p ≠ .panic := by
    intro k
    induction k with
    | zero => intro p hp; cases hp
    | succ k ih =>
      intro p hp
      rw [parents] at hp
      split at hp
      · split at hp
        · rename_i q _
          cases hr : parents h k q with
          | ok r => rw [hr] at hp; cases hp
          | err => rw [hr] at hp; cases hp
          | panic => exact ih q hr
        · cases hp
      · cases hp
  intro hp
  unfold ancestorsRev at hp
  split at hp
  · cases hp
  · split at hp
    · cases hx : siblings h (orderBase p) (orderLast p) p with
      | panic => exact hs _ _ _ hx
      | err => rw [hx] at hp; cases hp
      | ok sib =>
        rw [hx] at hp
        simp only [Res.bind_ok] at hp
        cases hy : parents h p.order.length (sib.getLastD p) with
        | panic => exact hpa _ _ hy
        | err => rw [hy] at hp; cases hp
        | ok t => rw [hy] at hp; cases hp
    · simp only [Res.bind_ok] at hp
      cases hy : parents h p.order.length ([].getLastD p) with
      | panic => exact hpa _ _ hy
      | err => rw [hy] at hp; cases hp
      | ok t => rw [hy] at hp; cases hp

end
end Verif.Removal
