import Verif.Spec.JsOrder
import Verif.Proof.Quote
import Verif.Proof.Leaves
import Verif.Props.Values
/-!
UTF-8 keeps the order of characters, UTF-16 does not quite.
-/
namespace JP
open Spec

theorem utf8_lt {r t : Nat} (h : r.isValidChar) (h' : t.isValidChar) (hlt : r < t) (x y : Bytes) : utf8 r ++ x < utf8 t ++ y := by
  rw [← utf8_encode h, ← utf8_encode h']
  unfold Nat.isValidChar at h h'
  have L : ∀ n m : Nat, n < 256 → m < 256 → (UInt8.ofNat n < UInt8.ofNat m ↔ n < m) := by
    intro n m h1 h2
    rw [UInt8.lt_iff_toNat_lt, UInt8.toNat_ofNat', UInt8.toNat_ofNat', Nat.mod_eq_of_lt h1, Nat.mod_eq_of_lt h2]
  have E : ∀ n m : Nat, n < 256 → m < 256 → (UInt8.ofNat n = UInt8.ofNat m ↔ n = m) := by
    intro n m h1 h2
    rw [← UInt8.toNat_inj, UInt8.toNat_ofNat', UInt8.toNat_ofNat', Nat.mod_eq_of_lt h1, Nat.mod_eq_of_lt h2]
  have q1 : r / 64 < t / 64 ∨ r / 64 = t / 64 := by omega
  have q2 : r / 4096 < t / 4096 ∨ r / 4096 = t / 4096 := by omega
  have q3 : r / 262144 < t / 262144 ∨ r / 262144 = t / 262144 := by omega
  unfold encodeRune
  rw [if_neg (c := (0xD800 ≤ r ∧ r ≤ 0xDFFF) ∨ 0x10FFFF < r) (by omega), if_neg (c := (0xD800 ≤ t ∧ t ≤ 0xDFFF) ∨ 0x10FFFF < t) (by omega)]
  have hi : r < 0x110000 ∧ t < 0x110000 := by omega
  clear h h'
  rcases q3 with q3 | q3 <;> rcases q2 with q2 | q2 <;> rcases q1 with q1 | q1 <;> (try omega) <;> split_ifs <;> (try omega) <;>
    simp only [List.cons_append, List.nil_append, List.cons_lt_cons_iff] <;> simp (disch := omega) only [L, E] <;>
    repeat' first
      | exact Or.inl (by omega)
      | refine Or.inr ⟨by omega, ?_⟩

theorem utf16_lt {r t : Nat} (h : r.isValidChar) (h' : t.isValidChar) (hlt : r < t) (x y : List Nat) :
    (¬ (0xE000 ≤ r ∧ r < 0x10000 ∧ 0x10000 ≤ t) → utf16 r ++ x < utf16 t ++ y) ∧
      (0xE000 ≤ r → r < 0x10000 → 0x10000 ≤ t → utf16 t ++ y < utf16 r ++ x) := by
  unfold Nat.isValidChar at h h'
  unfold utf16
  constructor
  · intro hn
    have q : (r - 0x10000) / 0x400 < (t - 0x10000) / 0x400 ∨ (r - 0x10000) / 0x400 = (t - 0x10000) / 0x400 := by omega
    rcases q with q | q <;> split_ifs <;> (try omega) <;> simp only [List.cons_append, List.nil_append, List.cons_lt_cons_iff] <;>
    repeat' first
      | exact Or.inl (by omega)
      | refine Or.inr ⟨by omega, ?_⟩
  · intro h1 h2 h3
    rw [if_pos h2, if_neg (by omega)]
    simp only [List.cons_append, List.nil_append, List.cons_lt_cons_iff]
    exact Or.inl (by omega)

theorem utf16_ne (r : Nat) : utf16 r ≠ [] := by unfold utf16; split <;> simp

theorem text_lt : ∀ {rs ts : List Nat}, Chars rs → Chars ts → rs < ts → text rs < text ts := by
  intro rs
  induction rs with
  | nil =>
    intro ts _ _ h
    cases ts with
    | nil => exact absurd h (by simp)
    | cons t ts =>
      simp only [text, List.flatMap_cons, List.flatMap_nil]
      cases hu : utf8 t with
      | nil => exact absurd hu (utf8_ne t)
      | cons a u => simp
  | cons r rs ih =>
    intro ts hr ht h
    cases ts with
    | nil => exact absurd h (by simp)
    | cons t ts =>
      simp only [text, List.flatMap_cons]
      rw [List.cons_lt_cons_iff] at h
      rcases h with h | ⟨rfl, h⟩
      · exact utf8_lt (hr _ (List.mem_cons_self ..)) (ht _ (List.mem_cons_self ..)) h _ _
      · have := ih (fun x hx => hr x (List.mem_cons_of_mem _ hx)) (fun x hx => ht x (List.mem_cons_of_mem _ hx)) h
        exact List.append_left_lt this

theorem nats_trichotomy : ∀ rs ts : List Nat, rs < ts ∨ rs = ts ∨ ts < rs
  | [], [] => by simp
  | [], _ :: _ => by simp
  | _ :: _, [] => by simp
  | r :: rs, t :: ts => by
    simp only [List.cons_lt_cons_iff, List.cons.injEq]
    rcases Nat.lt_trichotomy r t with h | rfl | h
    · exact .inl (.inl h)
    · rcases nats_trichotomy rs ts with h | rfl | h
      · exact .inl (.inr ⟨rfl, h⟩)
      · exact .inr (.inl ⟨rfl, rfl⟩)
      · exact .inr (.inr (.inr ⟨rfl, h⟩))
    · exact .inr (.inr (.inl h))

theorem text_lt_iff {rs ts : List Nat} (hr : Chars rs) (ht : Chars ts) : text rs < text ts ↔ rs < ts := by
  refine ⟨fun h => ?_, text_lt hr ht⟩
  rcases nats_trichotomy rs ts with h1 | rfl | h1
  · exact h1
  · exact absurd h (List.lt_irrefl _)
  · exact absurd (List.lt_trans h (text_lt ht hr h1)) (List.lt_irrefl _)

theorem text_inj {rs ts : List Nat} (hr : Chars rs) (ht : Chars ts) (h : text rs = text ts) : rs = ts := by
  rcases nats_trichotomy rs ts with h1 | h1 | h1
  · have := text_lt hr ht h1
    rw [h] at this
    exact absurd this (List.lt_irrefl _)
  · exact h1
  · have := text_lt ht hr h1
    rw [h] at this
    exact absurd this (List.lt_irrefl _)

theorem Spec.Clash.symm {rs ts : List Nat} (h : Clash rs ts) : Clash ts rs := by
  induction h with
  | left a b u v h1 h2 h3 => exact .right _ _ _ _ h1 h2 h3
  | right a b u v h1 h2 h3 => exact .left _ _ _ _ h1 h2 h3
  | there c u v _ ih => exact .there _ _ _ ih

theorem units_lt : ∀ {rs ts : List Nat}, Chars rs → Chars ts → rs < ts →
    (¬ Clash rs ts → rs.flatMap utf16 < ts.flatMap utf16) ∧ (Clash rs ts → ts.flatMap utf16 < rs.flatMap utf16) := by
  intro rs
  induction rs with
  | nil =>
    intro ts _ _ h
    cases ts with
    | nil => exact absurd h (by simp)
    | cons t ts =>
      refine ⟨fun _ => ?_, fun h => by cases h⟩
      simp only [List.flatMap_cons, List.flatMap_nil]
      cases hu : utf16 t with
      | nil => exact absurd hu (utf16_ne t)
      | cons a u => simp
  | cons r rs ih =>
    intro ts hr ht h
    cases ts with
    | nil => exact absurd h (by simp)
    | cons t ts =>
      simp only [List.flatMap_cons]
      rw [List.cons_lt_cons_iff] at h
      rcases h with h | ⟨rfl, h⟩
      · obtain ⟨h1, h2⟩ := utf16_lt (hr _ (List.mem_cons_self ..)) (ht _ (List.mem_cons_self ..)) h (rs.flatMap utf16) (ts.flatMap utf16)
        refine ⟨fun hn => h1 fun ⟨a, b, c⟩ => hn (.left _ _ _ _ a b c), fun hc => ?_⟩
        cases hc with
        | left _ _ _ _ a b c => exact h2 a b c
        | right _ _ _ _ a b c => omega
        | there _ _ _ hc => omega
      · obtain ⟨h1, h2⟩ := ih (fun x hx => hr x (List.mem_cons_of_mem _ hx)) (fun x hx => ht x (List.mem_cons_of_mem _ hx)) h
        refine ⟨fun hn => List.append_left_lt (h1 fun hc => hn (.there _ _ _ hc)), fun hc => List.append_left_lt (h2 ?_)⟩
        cases hc with
        | left _ _ _ _ a b c => omega
        | right _ _ _ _ a b c => omega
        | there _ _ _ hc => exact hc

theorem before_iff {rs ts : List Nat} (hr : Chars rs) (ht : Chars ts) : Before (text rs) (text ts) ↔ rs.flatMap utf16 < ts.flatMap utf16 := by
  constructor
  · rintro ⟨rs', ts', h1, h2, h3, h4, h5⟩
    rw [text_inj hr h3 h1, text_inj ht h4 h2]
    exact h5
  · intro h
    exact ⟨rs, ts, rfl, rfl, hr, ht, h⟩

theorem clash_irrefl : ∀ {rs : List Nat}, ¬ Clash rs rs := by
  intro rs h
  have : ∀ {rs ts : List Nat}, Clash rs ts → rs ≠ ts := by
    intro rs ts h
    induction h with
    | left a b u v h1 h2 h3 => intro e; injection e; omega
    | right a b u v h1 h2 h3 => intro e; injection e; omega
    | there c u v _ ih => intro e; injection e with _ e; exact ih e
  exact this h rfl

/-- The two orders of strings agree. -/
theorem units_iff {rs ts : List Nat} (hr : Chars rs) (ht : Chars ts) (hn : ¬ Clash rs ts) :
    rs.flatMap utf16 < ts.flatMap utf16 ↔ rs < ts := by
  refine ⟨fun h => ?_, fun h => (units_lt hr ht h).1 hn⟩
  rcases nats_trichotomy rs ts with h1 | rfl | h1
  · exact h1
  · exact absurd h (List.lt_irrefl _)
  · exact absurd (List.lt_trans h ((units_lt ht hr h1).1 fun hc => hn hc.symm)) (List.lt_irrefl _)

/-- The two orders of strings disagree. -/
theorem units_clash {rs ts : List Nat} (hr : Chars rs) (ht : Chars ts) (hc : Clash rs ts) :
    rs.flatMap utf16 < ts.flatMap utf16 ↔ ts < rs := by
  refine ⟨fun h => ?_, fun h => (units_lt ht hr h).2 hc.symm⟩
  rcases nats_trichotomy rs ts with h1 | rfl | h1
  · exact absurd (List.lt_trans h ((units_lt hr ht h1).2 hc)) (List.lt_irrefl _)
  · exact absurd hc clash_irrefl
  · exact h1

end JP
