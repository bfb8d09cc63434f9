import Verif.Spec.RfcText
import Verif.Proof.RfcSteps
import Verif.Proof.Quote
import Verif.Proof.JsOrder
/-! The texts of RFC 9535. -/
namespace JP.Rfc
open Spec

variable {env : Env}

theorem Blanks.white {w : Bytes} (h : Blanks w) : White w := by
  intro c hc
  rcases h c hc with rfl | rfl | rfl | rfl <;> simp [Space]

/-! ### Characters -/

/-- The bytes of a character: itself, or bytes outside ASCII. -/
theorem utf8_bytes {r : Nat} (h : r.isValidChar) : (r < 0x80 ∧ utf8 r = [UInt8.ofNat r]) ∨ (0x80 ≤ r ∧ ∀ c ∈ utf8 r, 0x80 ≤ c) := by
  have B : ∀ n : Nat, 0x80 ≤ n → n < 256 → 0x80 ≤ UInt8.ofNat n := by
    intro n h1 h2
    rw [UInt8.le_iff_toNat_le, UInt8.toNat_ofNat']
    simp
    omega
  rw [← utf8_encode h]
  unfold encodeRune
  unfold Nat.isValidChar at h
  split
  · next hr => exact .inl ⟨by omega, rfl⟩
  split
  · next hr =>
    refine .inr ⟨by omega, fun c hc => ?_⟩
    simp only [List.mem_cons, List.not_mem_nil, or_false] at hc
    rcases hc with rfl | rfl <;> exact B _ (by omega) (by omega)
  split
  · omega
  split
  · next hr =>
    refine .inr ⟨by omega, fun c hc => ?_⟩
    simp only [List.mem_cons, List.not_mem_nil, or_false] at hc
    rcases hc with rfl | rfl | rfl <;> exact B _ (by omega) (by omega)
  · next hr =>
    refine .inr ⟨by omega, fun c hc => ?_⟩
    simp only [List.mem_cons, List.not_mem_nil, or_false] at hc
    rcases hc with rfl | rfl | rfl | rfl <;> exact B _ (by omega) (by omega)

theorem FourHex.escape {q : UInt8} {h : Bytes} {u : Nat} (hh : FourHex h u) : Escape q (c! '\\' :: h) u := by
  cases hh with
  | mk a b c d => exact .unicode _ _ _ _ _ _ _ _ a b c d

theorem Escapable.escape {q e c : UInt8} (h : Escapable e c) : Escape q [c! '\\', e] c.toNat ∧ c < 0x80 := by
  cases h
  · exact ⟨.backspace, by decide⟩
  · exact ⟨.formFeed, by decide⟩
  · exact ⟨.newline, by decide⟩
  · exact ⟨.return, by decide⟩
  · exact ⟨.tab, by decide⟩
  · exact ⟨.slash, by decide⟩
  · exact ⟨.backslash, by decide⟩

theorem denotes_plain {q : UInt8} {t v : Bytes} (h : Denotes true q t v) : ∀ (w : Bytes), (∀ c ∈ w, c ≠ q ∧ c ≠ c! '\\' ∧ 0x20 ≤ c) → Denotes true q (w ++ t) (w ++ v)
  | [], _ => h
  | c :: w, hw => .plain _ _ _ (hw c (by simp)).1 (hw c (by simp)).2.1 (hw c (by simp)).2.2 (denotes_plain h w fun d hd => hw d (by simp [hd]))

theorem denotes_ascii {q : UInt8} (hq : Quote q) {e t v : Bytes} {c : UInt8} (he : Escape q e c.toNat) (hc : c < 0x80) (h : Denotes true q t v) :
    Denotes true q (e ++ t) (c :: v) := by
  have hc' : c.toNat < 128 := by simpa [UInt8.lt_iff_toNat_lt] using hc
  have hs : ¬ Surrogate c.toNat := by rintro ⟨h, _⟩; omega
  have := Denotes.escape (strict := true) e c.toNat _ v he (notPair hq he hs) (fun _ h => absurd h hs) h
  rwa [utf8_ascii hc] at this

theorem Inside.denotes {q : UInt8} (hq : Quote q) {t v : Bytes} (h : Inside q t v) : Denotes true q t v := by
  have hqa : q < 0x80 := by rcases hq with rfl | rfl <;> decide
  induction h with
  | nil => exact .nil
  | @unescaped r t v h1 h2 h3 h4 _ ih =>
    refine denotes_plain ih _ fun c hc => ?_
    rcases utf8_bytes h1 with ⟨hr, he⟩ | ⟨_, hb⟩
    · rw [he, List.mem_singleton] at hc
      subst hc
      have e : (UInt8.ofNat r).toNat = r := by rw [UInt8.toNat_ofNat']; omega
      refine ⟨fun h => h3 (by rw [← h, e]), fun h => h4 (by rw [← e, h]; rfl), ?_⟩
      rw [UInt8.le_iff_toNat_le, e]
      exact h2
    · have := hb c hc
      have h80 : 0x80 ≤ c.toNat := by simpa [UInt8.le_iff_toNat_le] using this
      refine ⟨?_, ?_, ?_⟩
      · rintro rfl
        have : c.toNat < 128 := by simpa [UInt8.lt_iff_toNat_lt] using hqa
        omega
      · rintro rfl
        revert h80
        decide
      · rw [UInt8.le_iff_toNat_le]
        simp
        omega
  | quote _ ih => exact denotes_ascii hq .quote hqa ih
  | escaped he _ ih => have := he.escape (q := q); exact denotes_ascii hq this.1 this.2 ih
  | unicode hh hs _ ih => exact .escape _ _ _ _ hh.escape (notPair hq hh.escape hs) (fun _ h => absurd h hs) ih
  | pair h1 h2 hp _ ih =>
    have := Denotes.pair (strict := true) _ _ _ _ _ _ h1.escape h2.escape hp ih
    simpa using this

theorem StringLiteral.lit {w v : Bytes} (h : StringLiteral w v) : StrLit w v := by
  cases h with
  | mk hq hi =>
    have hq' : Quote _ := hq
    exact (hi.denotes hq').body.lit hq'

/-! ### Words -/

theorem IntText.word {t : Bytes} {i : Int} (h : IntText t i) (hr : InRange i) : PathWord (intTok (Int64.ofInt i)) t [] := by
  obtain ⟨h1, h2⟩ := hr
  cases h with
  | zero => exact .int (b! "0") [] ⟨by simp, by simp [All, Digit]⟩ (.nil _) (by decide)
  | @pos d ds hd _ hds =>
    have hD : Digits (d :: ds) := ⟨by simp, by intro c hc; rcases List.mem_cons.1 hc with rfl | hc; exacts [hd, hds c hc]⟩
    have := PathWord.int (d :: ds) [] hD (.nil _) (by omega)
    rwa [show Int64.ofNat (decimal (d :: ds)) = Int64.ofInt (decimal (d :: ds) : Nat) from rfl] at this
  | @neg d ds hd _ hds =>
    have hD : Digits (d :: ds) := ⟨by simp, by intro c hc; rcases List.mem_cons.1 hc with rfl | hc; exacts [hd, hds c hc]⟩
    have := PathWord.neg [] (d :: ds) [] White.nil hD (.nil _) (by omega)
    rwa [show -Int64.ofNat (decimal (d :: ds)) = Int64.ofInt (-(decimal (d :: ds) : Nat)) from by rw [Int64.ofInt_neg]; rfl] at this

/-- White space at the end. -/
theorem _root_.JP.Spec.Written.trail {pf : Bytes → Option F64} {ts : List Token} {a g : Bytes} (h : Written pf ts a) (hg : White g) : Written pf ts (a ++ g) := by
  cases g with
  | nil => simpa using h
  | cons c g =>
    have := h.join (.nil _ hg) (neutral_space (hg c (by simp))) outside_nil
    simpa using this

/-- Joined before a neutral character, with white space between. -/
theorem _root_.JP.Spec.Written.joinS {pf : Bytes → Option F64} {ts us : List Token} {a g b : Bytes} {c : UInt8} (h1 : Written pf ts a) (hg : White g)
    (h2 : Written pf us (c :: b)) (hc : Neutral c) (ho : Outside us) : Written pf (ts ++ us) (a ++ (g ++ c :: b)) := by
  have := (h1.trail hg).join h2 hc ho
  simpa using this

theorem BoundS.back {a : Option Int} {t : Bytes} (h : BoundS a t) (hr : ∀ i ∈ a, InRange i) :
    ∃ ts, Written env.parseFloat ts t ∧ GBound? env.reValid ts ((a.map Int64.ofInt).map .int) ∧ Outside ts := by
  cases h with
  | none => exact ⟨[], .nil _ White.nil, .none, outside_nil⟩
  | some hi hs => exact ⟨_, (written_oneP (hi.word (hr _ rfl))).trail hs.white, .some _ _ (.int _), outside_path _ _⟩

theorem outside_append {ts us : List Token} (h : Outside ts) (h' : Outside us) : Outside (ts ++ us) := by
  cases ts with
  | nil => exact h'
  | cons t ts => intro x hx; exact h x hx

theorem Written1.back {s : Selector} {w : Bytes} (h : Written1 s w) (hv : s.Valid) (hn : s ≠ .wild) :
    ∃ ts, Written env.parseFloat ts w ∧ GElem env.reValid ts (valOf s) ∧ Outside ts := by
  cases h with
  | name h => exact ⟨_, written_oneP (strWord.mpr h.lit), .str _, outside_path _ _⟩
  | wild => exact absurd rfl hn
  | index h => exact ⟨_, written_oneP (h.word hv), .int _, outside_path _ _⟩
  | slice ha hs hb =>
    obtain ⟨ta, wa, ga, oa⟩ := ha.back (env := env) hv.1
    obtain ⟨tb, wb, gb, ob⟩ := hb.back (env := env) hv.2.1
    refine ⟨_, wa.join ((wb.gap hs.white ob).punctP (c := c! ':') (by decide)) neutral_colon (outside_path _ _), .slice _ _ (.two _ _ _ _ ga gb), outside_append oa (outside_path _ _)⟩
  | sliceColon ha hs hb =>
    obtain ⟨ta, wa, ga, oa⟩ := ha.back (env := env) hv.1
    obtain ⟨tb, wb, gb, ob⟩ := hb.back (env := env) hv.2.1
    have w1 : Written env.parseFloat (tb ++ [.p (c! ':')]) _ := wb.join (.punctP (c := c! ':') (by decide) (.nil _ White.nil)) neutral_colon (outside_path _ _)
    have o1 : Outside (tb ++ [.p (c! ':')]) := outside_append ob (outside_path _ _)
    refine ⟨_, wa.join ((w1.gap hs.white o1).punctP (c := c! ':') (by decide)) neutral_colon (outside_path _ _),
      .slice _ _ (.three _ _ _ _ [] _ ga gb .none), outside_append oa (outside_path _ _)⟩
  | @sliceStep _ _ c _ _ _ _ _ ha hs hb hs' hc =>
    obtain ⟨ta, wa, ga, oa⟩ := ha.back (env := env) hv.1
    obtain ⟨tb, wb, gb, ob⟩ := hb.back (env := env) hv.2.1
    have wc := (written_oneP (pf := env.parseFloat) (hc.word (hv.2.2 _ rfl))).gap hs'.white (outside_path _ _)
    have w1 := wb.join (wc.punctP (c := c! ':') (by decide)) neutral_colon (outside_path _ _)
    have o1 : Outside (tb ++ .p (c! ':') :: [.path (intTok (Int64.ofInt c))]) := outside_append ob (outside_path _ _)
    refine ⟨_, wa.join ((w1.gap hs.white o1).punctP (c := c! ':') (by decide)) neutral_colon (outside_path _ _),
      .slice _ _ (.three _ _ _ _ _ _ ga gb (.some _ _ (.int _))), outside_append oa (outside_path _ _)⟩

theorem WrittenSels.back {sels : List Selector} {w : Bytes} (h : WrittenSels sels w) (hv : ∀ s ∈ sels, s.Valid) (hn : ∀ s ∈ sels, s ≠ .wild) :
    ∃ ts, Written env.parseFloat ts w ∧ GElems env.reValid ts (sels.map valOf) ∧ Outside ts := by
  induction h with
  | one h =>
    obtain ⟨ts, h1, h2, h3⟩ := h.back (env := env) (hv _ (by simp)) (hn _ (by simp))
    exact ⟨ts, h1, .one _ _ h2, h3⟩
  | cons h hg hg' _ ih =>
    obtain ⟨ts, h1, h2, h3⟩ := h.back (env := env) (hv _ (by simp)) (hn _ (by simp))
    obtain ⟨us, h4, h5, h6⟩ := ih (fun s hs => hv s (by simp [hs])) (fun s hs => hn s (by simp [hs]))
    exact ⟨_, h1.joinS hg.white ((h4.gap hg'.white h6).punctP (c := c! ',') (by decide)) neutral_comma (outside_path _ _),
      .cons _ _ _ _ h2 h5, outside_append h3 (outside_path _ _)⟩

/-! ### Segments -/

/-- The step for selectors in brackets. -/
def kindOf : List Selector → StepKind
  | [.wild] => .wild
  | [s] => .key (valOf s)
  | sels => .union (sels.map valOf)

theorem WrittenBracket.back {sels : List Selector} {w : Bytes} (h : WrittenBracket sels w) (hv : ∀ s ∈ sels, s.Valid)
    (hl : .wild ∈ sels → sels = [.wild]) :
    ∃ ts, Written env.parseFloat (.p (c! '[') :: (ts ++ [.p (c! ']')])) w ∧ GSub env.reValid ts (kindOf sels) := by
  cases h with
  | @mk g w g' hg hw hg' =>
    have key : ∃ ts, Written env.parseFloat ts w ∧ GSub env.reValid ts (kindOf sels) ∧ Outside ts := by
      by_cases hwild : Selector.wild ∈ sels
      · have := hl hwild
        subst this
        cases hw with
        | one h => cases h; exact ⟨_, wild_back, .wild, outside_path _ _⟩
        | cons _ _ _ h => cases h
      · have hn : ∀ s ∈ sels, s ≠ .wild := fun s hs he => hwild (he ▸ hs)
        cases hw with
        | @one s _ h =>
          obtain ⟨ts, h1, h2, h3⟩ := h.back (env := env) (hv _ (by simp)) (hn _ (by simp))
          refine ⟨ts, h1, ?_, h3⟩
          cases s
          case wild => exact absurd rfl (hn _ (by simp))
          all_goals exact .one _ _ h2
        | @cons s w1 g1 g2 sels' w2 h1 h2 h3 h4 =>
          obtain ⟨ts, k1, k2, k3⟩ := (WrittenSels.cons h1 h2 h3 h4).back (env := env) hv hn
          refine ⟨ts, k1, ?_, k3⟩
          have hne : ∃ s' r, sels' = s' :: r := by cases h4 <;> exact ⟨_, _, rfl⟩
          obtain ⟨s', r, rfl⟩ := hne
          have e : kindOf (s :: s' :: r) = .union ((s :: s' :: r).map valOf) := by cases s <;> rfl
          rw [e]
          exact .union _ _ k2 (by simp)
    obtain ⟨ts, h1, h2, h3⟩ := key
    have h4 := (h1.gap hg.white h3).joinS hg'.white (.punctP (c := c! ']') (by decide) (.nil _ White.nil)) (neutral_of (by decide)) (outside_path _ _)
    have h5 := h4.punctP (c := c! '[') (by decide)
    exact ⟨ts, by simpa using h5, h2⟩

theorem kindOf_step {sels : List Selector} (hne : sels ≠ []) (hl : .wild ∈ sels → sels = [.wild]) :
    StepFor (.child sels) ((kindOf sels).step true false) ∧ StepFor (.descend sels) ((kindOf sels).step true true) := by
  by_cases hwild : Selector.wild ∈ sels
  · have := hl hwild
    subst this
    exact ⟨.wild, .nestWild⟩
  · have hn : ∀ s ∈ sels, s ≠ .wild := fun s hs he => hwild (he ▸ hs)
    match sels, hne with
    | [s], _ =>
      have e : kindOf [s] = .key (valOf s) := by
        cases s
        case wild => exact absurd rfl (hn _ (by simp))
        all_goals rfl
      rw [e]
      exact ⟨.select s (hn s (by simp)), .nestSelect s (hn s (by simp))⟩
    | s :: s' :: r, _ =>
      have e : kindOf (s :: s' :: r) = .union ((s :: s' :: r).map valOf) := by cases s <;> rfl
      rw [e]
      exact ⟨.union _ hn, .nestUnion _ hn⟩

theorem NameFirst.letters {r : Nat} (h : NameFirst r) : ∀ c ∈ utf8 r, Letter c := by
  have hv : r.isValidChar := by
    rcases h with h | h | h | h
    · exact .inl (by omega)
    · exact .inl (by omega)
    · exact .inl (by omega)
    · exact h.2
  intro c hc
  rcases utf8_bytes hv with ⟨hr, he⟩ | ⟨_, hb⟩
  · rw [he, List.mem_singleton] at hc
    subst hc
    have e : (UInt8.ofNat r).toNat = r := by rw [UInt8.toNat_ofNat']; omega
    unfold Letter
    simp only [UInt8.le_iff_toNat_le, ← UInt8.toNat_inj, e]
    unfold NameFirst at h
    simp
    omega
  · exact .inr (.inr (.inr (hb c hc)))

theorem NameChar.letters {r : Nat} (h : NameChar r) : ∀ c ∈ utf8 r, LetterDigit c := by
  rcases h with h | h
  · exact fun c hc => .inl (h.letters c hc)
  · intro c hc
    rcases utf8_bytes (r := r) (.inl (by omega)) with ⟨hr, he⟩ | ⟨hr, _⟩
    · rw [he, List.mem_singleton] at hc
      subst hc
      have e : (UInt8.ofNat r).toNat = r := by rw [UInt8.toNat_ofNat']; omega
      refine .inr ?_
      unfold Digit
      simp only [UInt8.le_iff_toNat_le, e]
      simp
      omega
    · omega

theorem ShortName.ident {s : Bytes} (h : ShortName s) : Ident s := by
  obtain ⟨r, rs, h1, h2, rfl⟩ := h
  obtain ⟨c, t, he⟩ := List.exists_cons_of_ne_nil (utf8_ne r)
  have hl := h1.letters
  rw [he] at hl ⊢
  refine ⟨c, t ++ rs.flatMap utf8, rfl, hl c (by simp), fun d hd => ?_⟩
  rcases List.mem_append.1 hd with hd | hd
  · exact .inl (hl d (by simp [hd]))
  · obtain ⟨x, hx, hd⟩ := List.mem_flatMap.1 hd
    exact (h2 x hx).letters d hd

/-- The blanks before a segment make no difference. -/
theorem parse_gap {g w : Bytes} {ts : List Token} {st : Step} (hg : Blanks g) (h1 : Written env.parseFloat ts w) (h2 : GStep env.reValid ts st) :
    parsePath env (c! '$' :: (g ++ w)) = .ok [st] := by
  have ho : Outside ts := by obtain ⟨lx, us, rfl, _⟩ := GStep_first h2; exact outside_path _ _
  have hw : Written env.parseFloat (.p (c! '$') :: ts) (c! '$' :: (g ++ w)) := .punctP (by decide) (h1.gap hg.white ho)
  have hs : GSteps env.reValid (ts ++ []) [st] := .cons _ _ _ _ h2 .nil
  rw [List.append_nil] at hs
  exact parsePath_iff.mpr ⟨_, hw, _, hs, rfl⟩

theorem WrittenSegment.parse {seg : Segment} {g w : Bytes} (hg : Blanks g) (h : WrittenSegment seg w) (hv : ∀ s ∈ seg.sels, s.Valid)
    (hne : seg.sels ≠ []) (hl : seg.Lone) : ∃ st, StepFor seg st ∧ parsePath env (c! '$' :: (g ++ w)) = .ok [st] := by
  have ident : ∀ {s : Bytes}, ShortName s → ∃ st, StepFor (.child [.name s]) st ∧ parsePath env (c! '$' :: (g ++ (b! "." ++ s))) = .ok [st] ∧
      ∃ st, StepFor (.descend [.name s]) st ∧ parsePath env (c! '$' :: (g ++ (b! ".." ++ s))) = .ok [st] := by
    intro s hs
    obtain ⟨c, w, rfl, h1, h2⟩ := hs.ident
    have hi : TreeMember env true (.name (c :: w)) := .name _ ⟨c, w, rfl, h1, fun x hx => (h2 x hx).elim .inl (.inr ∘ .inl)⟩
    obtain ⟨ts, _, _, e, _, w1, g1⟩ := step_back (env := env) (.member _ hi)
    obtain ⟨us, _, _, e', _, w2, g2⟩ := step_back (env := env) (.nestMember _ hi)
    rw [← e] at w1
    rw [← e'] at w2
    exact ⟨_, .member _, parse_gap hg w1 g1, _, .nestMember _, parse_gap hg w2 g2⟩
  have wild : ∃ st, StepFor (.child [.wild]) st ∧ parsePath env (c! '$' :: (g ++ b! ".*")) = .ok [st] ∧
      ∃ st, StepFor (.descend [.wild]) st ∧ parsePath env (c! '$' :: (g ++ b! "..*")) = .ok [st] := by
    have w1 : Written env.parseFloat [.p (c! '.'), .p (c! '*')] (b! ".*") :=
      .cons _ _ [] (b! ".") (b! "*") White.nil (.path _ _ _ (.dot _ (by intro c hc; cases hc; decide))) wild_back
    have w2 : Written env.parseFloat [.path (.plain .nest), .p (c! '*')] (b! "..*") := nested_written wild_back
    exact ⟨_, .wild, parse_gap hg w1 (.member _ _ .wild), _, .nestWild, parse_gap hg w2 (.nestMember _ _ .wild)⟩
  cases h with
  | child h =>
    obtain ⟨ts, h1, h2⟩ := h.back (env := env) hv hl
    exact ⟨_, (kindOf_step hne hl).1, parse_gap hg h1 (.sub _ _ h2)⟩
  | descend h =>
    obtain ⟨ts, h1, h2⟩ := h.back (env := env) hv hl
    exact ⟨_, (kindOf_step hne hl).2, parse_gap hg (nested_written h1) (.nestSub _ _ h2)⟩
  | dotWild => obtain ⟨st, h1, h2, _⟩ := wild; exact ⟨st, h1, h2⟩
  | dotsWild => obtain ⟨_, _, _, st, h1, h2⟩ := wild; exact ⟨st, h1, h2⟩
  | dotName hs => obtain ⟨st, h1, h2, _⟩ := ident hs; exact ⟨st, h1, h2⟩
  | dotsName hs => obtain ⟨_, _, _, st, h1, h2⟩ := ident hs; exact ⟨st, h1, h2⟩

theorem WrittenQuery.parse {q : Query} {text : Bytes} (h : WrittenQuery q text) (hv : q.Valid) (hl : ∀ seg ∈ q, seg.Lone) :
    ∃ ss, All2 StepFor q ss ∧ parsePath env text = .ok ss := by
  obtain ⟨t, ht, rfl⟩ := h
  have : ∃ ts ss, t = ts.flatten ∧ All2 StepFor q ss ∧ All2 (fun piece s => parsePath env (c! '$' :: piece) = .ok [s]) ts ss := by
    induction ht with
    | nil => exact ⟨[], [], rfl, .nil, .nil⟩
    | @cons seg g w q t hg h _ ih =>
      obtain ⟨ts, ss, e, h1, h2⟩ := ih (fun seg hs => hv seg (by simp [hs])) (fun seg hs => hl seg (by simp [hs]))
      obtain ⟨st, h3, h4⟩ := h.parse (env := env) hg (hv _ (by simp)).2 (hv _ (by simp)).1 (hl _ (by simp))
      exact ⟨(g ++ w) :: ts, st :: ss, by simp [e], .cons h3 h1, .cons h4 h2⟩
  obtain ⟨ts, ss, e, h1, h2⟩ := this
  subst e
  exact ⟨ss, h1, (C93_pieces env _ _).2 ⟨b! "$", ts, rfl, rfl, h2⟩⟩

/-! ### Normalized Paths -/

theorem normal_denotes (s : Bytes) : Denotes true (c! '\'') (s.flatMap normalByte) s := by
  have hq : Quote (c! '\'') := .inr rfl
  induction s with
  | nil => exact .nil
  | cons c s ih =>
    rw [List.flatMap_cons]
    unfold normalByte
    split
    · next h => subst h; exact denotes_ascii hq .backspace (by decide) ih
    split
    · next h => subst h; exact denotes_ascii hq .tab (by decide) ih
    split
    · next h => subst h; exact denotes_ascii hq .newline (by decide) ih
    split
    · next h => subst h; exact denotes_ascii hq .formFeed (by decide) ih
    split
    · next h => subst h; exact denotes_ascii hq .return (by decide) ih
    split
    · next h => subst h; exact denotes_ascii hq .quote (by decide) ih
    split
    · next h => subst h; exact denotes_ascii hq .backslash (by decide) ih
    split
    · next h1 =>
      have hc : c.toNat < 32 := by simpa [UInt8.lt_iff_toNat_lt] using h1
      refine denotes_ascii hq ?_ (by simp only [UInt8.lt_iff_toNat_lt]; simp; omega) ih
      have := Escape.unicode (q := c! '\'') (c! '0') (c! '0') (hexDigit (c.toNat / 16)) (hexDigit (c.toNat % 16)) 0 0 (c.toNat / 16)
        (c.toNat % 16) (.digit 0 (by omega)) (.digit 0 (by omega)) (hexDigit_hex (by omega)) (hexDigit_hex (by omega))
      have e : 4096 * 0 + 256 * 0 + 16 * (c.toNat / 16) + c.toNat % 16 = c.toNat := by omega
      rw [e] at this
      exact this
    · next h1 h2 h3 =>
      exact .plain _ _ _ h1 h2 (by rwa [UInt8.not_lt] at h3) ih

theorem normalKey_parse {k : Key} (hk : ∀ i, k = .index i → i < 2 ^ 63) : parsePath env (c! '$' :: normalKey k) = .ok [keyStep k] := by
  cases k with
  | name s =>
    have := (lit_read (env := env) ((normal_denotes s).body.lit (.inr rfl))).1
    simpa [normalKey, keyStep] using this
  | index i =>
    have hi : ∀ j, Key.index j ∈ [Key.index i] → j < 2 ^ 63 := fun j hj => by
      have := List.mem_singleton.1 hj
      exact hk j this.symm
    have := C30_write_partial env _ (address_tree hi)
    rw [← address_eq hi] at this
    simpa [address, normalKey] using this

theorem normal_parse {pl : Place} (h : ∀ i, Key.index i ∈ pl → i < 2 ^ 63) : parsePath env (normalPath pl) = .ok (pl.map keyStep) := by
  have : All2 (fun piece s => parsePath env (c! '$' :: piece) = .ok [s]) (pl.map normalKey) (pl.map keyStep) := by
    induction pl with
    | nil => exact .nil
    | cons k r ih => exact .cons (normalKey_parse fun i hi => h i (by simp [hi])) (ih fun i hi => h i (by simp [hi]))
  exact (C93_pieces env _ _).2 ⟨b! "$", pl.map normalKey, by simp [normalPath, List.flatMap], rfl, this⟩

theorem keyStep_inj {k k' : Key} (hk : ∀ i, k = .index i → i < 2 ^ 63) (hk' : ∀ i, k' = .index i → i < 2 ^ 63) (h : keyStep k = keyStep k') : k = k' := by
  cases k with
  | name s =>
    cases k' with
    | name s' => simp [keyStep] at h; rw [h]
    | index i => simp [keyStep] at h
  | index i =>
    cases k' with
    | name s' => simp [keyStep] at h
    | index j =>
      simp only [keyStep, Step.mk.injEq, List.cons.injEq, Val.int.injEq, and_true, true_and] at h
      have h1 := i64_ofNat (hk i rfl)
      have h2 := i64_ofNat (hk' j rfl)
      rw [h, h2] at h1
      have : i = j := by omega
      rw [this]

theorem keySteps_inj : ∀ {p p' : Place}, (∀ i, Key.index i ∈ p → i < 2 ^ 63) → (∀ i, Key.index i ∈ p' → i < 2 ^ 63) → p.map keyStep = p'.map keyStep → p = p'
  | [], [], _, _, _ => rfl
  | [], _ :: _, _, _, h => by simp at h
  | _ :: _, [], _, _, h => by simp at h
  | k :: r, k' :: r', h1, h2, h => by
    simp only [List.map_cons, List.cons.injEq] at h
    rw [keyStep_inj (fun i hi => h1 i (by simp [hi])) (fun i hi => h2 i (by simp [hi])) h.1,
      keySteps_inj (fun i hi => h1 i (by simp [hi])) (fun i hi => h2 i (by simp [hi])) h.2]

theorem normal_inside : ∀ (rs : List Nat), (∀ r ∈ rs, r.isValidChar) → Inside (c! '\'') ((rs.flatMap utf8).flatMap normalByte) (rs.flatMap utf8)
  | [], _ => .nil
  | r :: rs, h => by
    have ih := normal_inside rs fun x hx => h x (by simp [hx])
    have hr := h r (by simp)
    rw [List.flatMap_cons, List.flatMap_append]
    rcases utf8_bytes hr with ⟨hr', he⟩ | ⟨hr', hb⟩
    · have e : (UInt8.ofNat r).toNat = r := by rw [UInt8.toNat_ofNat']; omega
      have one : utf8 r = [UInt8.ofNat r] := he
      rw [he, List.flatMap_cons, List.flatMap_nil, List.append_nil]
      generalize hc : UInt8.ofNat r = c at e he
      show Inside _ (normalByte c ++ _) (c :: _)
      unfold normalByte
      split
      · next h => subst h; exact .escaped .backspace ih
      split
      · next h => subst h; exact .escaped .tab ih
      split
      · next h => subst h; exact .escaped .newline ih
      split
      · next h => subst h; exact .escaped .formFeed ih
      split
      · next h => subst h; exact .escaped .return ih
      split
      · next h => subst h; exact .quote ih
      split
      · next h => subst h; exact .escaped .backslash ih
      split
      · next h1 =>
        have hc : c.toNat < 32 := by simpa [UInt8.lt_iff_toNat_lt] using h1
        have hf : FourHex (c! 'u' :: c! '0' :: c! '0' :: [hexDigit (c.toNat / 16), hexDigit (c.toNat % 16)]) r := by
          have := FourHex.mk (.digit 0 (by omega)) (.digit 0 (by omega)) (hexDigit_hex (n := c.toNat / 16) (by omega)) (hexDigit_hex (n := c.toNat % 16) (by omega))
          have e' : 4096 * 0 + 256 * 0 + 16 * (c.toNat / 16) + c.toNat % 16 = r := by omega
          rw [e'] at this
          exact this
        have := Inside.unicode hf (by rintro ⟨h, _⟩; omega) ih
        rw [he] at this
        exact this
      · next h1 h2 h3 =>
        have hc : 32 ≤ c.toNat := by rw [UInt8.not_lt, UInt8.le_iff_toNat_le] at h3; simpa using h3
        have := Inside.unescaped (q := c! '\'') hr (by omega) (by rw [← e]; exact fun h => h1 (UInt8.toNat_inj.1 h))
          (by rw [← e]; exact fun h => h2 (UInt8.toNat_inj.1 h)) ih
        rw [he] at this
        exact this
    · have hid : (utf8 r).flatMap normalByte = utf8 r := by
        have : ∀ w : Bytes, (∀ c ∈ w, 0x80 ≤ c) → w.flatMap normalByte = w := by
          intro w hw
          induction w with
          | nil => rfl
          | cons c w ih =>
            have h80 : 0x80 ≤ c.toNat := by simpa [UInt8.le_iff_toNat_le] using hw c (by simp)
            have hb : normalByte c = [c] := by
              have ne : ∀ d : UInt8, d.toNat < 0x80 → c ≠ d := by rintro d hd rfl; omega
              unfold normalByte
              rw [if_neg (ne _ (by decide)), if_neg (ne _ (by decide)), if_neg (ne _ (by decide)), if_neg (ne _ (by decide)), if_neg (ne _ (by decide)),
                if_neg (ne _ (by decide)), if_neg (ne _ (by decide)), if_neg (by rw [UInt8.lt_iff_toNat_lt]; simp; omega)]
            rw [List.flatMap_cons, hb, ih fun d hd => hw d (by simp [hd])]
            rfl
        exact this _ hb
      rw [hid]
      exact .unescaped hr (by omega) (by simp; omega) (by omega) ih

theorem writeNat_text (n : Nat) : IntText (writeNat n) n := by
  have h0 : ∀ n, 0 < n → ∃ d ds, writeNat n = d :: ds ∧ d ≠ c! '0' := by
    intro n
    induction n using writeNat.induct with
    | case1 n hn =>
      intro h
      rw [writeNat, if_pos hn]
      refine ⟨_, [], rfl, fun he => ?_⟩
      have := congrArg UInt8.toNat he
      rw [UInt8.toNat_ofNat'] at this
      simp at this
      omega
    | case2 n hn ih =>
      intro h
      obtain ⟨d, ds, h1, h2⟩ := ih (by omega)
      rw [writeNat, if_neg hn, h1]
      exact ⟨d, _, rfl, h2⟩
  obtain ⟨hd, he⟩ := writeNat_ok n
  by_cases hn : n = 0
  · subst hn
    have : writeNat 0 = b! "0" := by rw [writeNat]; rfl
    rw [this]
    exact .zero
  · obtain ⟨d, ds, h1, h2⟩ := h0 n (by omega)
    rw [h1] at hd he ⊢
    rw [← he]
    exact .pos (hd.2 d (by simp)) h2 fun c hc => hd.2 c (by simp [hc])

theorem normal_written : ∀ {p : Place}, (∀ s, Key.name s ∈ p → ∃ rs : List Nat, (∀ r ∈ rs, r.isValidChar) ∧ s = rs.flatMap utf8) →
    WrittenSegments (ofPlace p) (p.flatMap normalKey)
  | [], _ => .nil
  | k :: r, h => by
    have ih := normal_written (p := r) fun s hs => h s (by simp [hs])
    rw [List.flatMap_cons]
    have nil : Blanks [] := by intro c hc; cases hc
    refine .cons (g := []) nil ?_ ih
    cases k with
    | index i => exact .child (.mk (g := []) (g' := []) nil (.one (.index (writeNat_text i))) nil)
    | name s =>
      obtain ⟨rs, h1, rfl⟩ := h s (by simp)
      have := WrittenSegment.child (.mk (g := []) (g' := []) nil (.one (.name (.mk (.inr rfl) (normal_inside rs h1)))) nil)
      simpa [normalKey] using this

end JP.Rfc
