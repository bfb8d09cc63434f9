import Verif.Proof.Lexical
/-! The scanners read exactly the tokens as they are spelled. -/
namespace JP
open Spec

variable {env : Env}

/-! ### Numbers -/

theorem Stops.of_head {p : UInt8 → Prop} {next : Bytes} {c : UInt8} (h : Stops p next) (hc : p c) : next.head? ≠ some c :=
  fun e => h c e hc

/-- The scan of the digits of a number. -/
theorem digits_scan {d : UInt8} {b rest : Bytes} (hd : Digit d) :
    ∃ ds next, Digits ds ∧ Stops Digit next ∧ d :: rest = ds ++ next ∧
      (Rd.unget ⟨d :: b, rest⟩).takeWhile isDigit = (ds, ⟨ds.reverse ++ b, next⟩) := by
  have h := takeWhile_split (p := isDigit) (q := Digit) (fun _ => isDigit_iff) (d :: rest)
  refine ⟨_, _, ⟨?_, h.1⟩, h.2, List.takeWhile_append_dropWhile.symm, ?_⟩
  · simp [isDigit_iff.mpr hd]
  · rw [Rd.takeWhile_spec]; rfl

theorem scan_digits {ds next b : Bytes} (hd : All Digit ds) (hn : Stops Digit next) :
    Rd.takeWhile isDigit ⟨b, ds ++ next⟩ = (ds, ⟨ds.reverse ++ b, next⟩) :=
  Rd.takeWhile_all (fun _ => isDigit_iff) hd hn

theorem lexNumber_int {real : Bool} {d : UInt8} {ds next b : Bytes} (hds : Digits (d :: ds)) (hn : Stops Digit next)
    (hr : real = true → next.head? ≠ some (c! '.')) (hv : decimal (d :: ds) < 2 ^ 63) :
    lexNumber env real ⟨d :: b, ds ++ next⟩ = (intTok (Int64.ofNat (decimal (d :: ds))), ⟨(d :: ds).reverse ++ b, next⟩) := by
  have e : Rd.unget ⟨d :: b, ds ++ next⟩ = ⟨b, (d :: ds) ++ next⟩ := rfl
  unfold lexNumber
  dsimp only
  rw [e, scan_digits hds.2 hn]
  simp only [Rd.look]
  rw [if_pos (by cases real <;> simp_all), parseInt_digits hds, if_pos hv]

theorem lexNumber_real {d : UInt8} {w next b : Bytes} {f : F64} (h : RealText (d :: w) next) (hf : env.parseFloat (d :: w) = some f) :
    lexNumber env true ⟨d :: b, w ++ next⟩ = (realTok f, ⟨(d :: w).reverse ++ b, next⟩) := by
  generalize hw : d :: w = w' at h hf ⊢
  have e : Rd.unget ⟨d :: b, w ++ next⟩ = ⟨b, w' ++ next⟩ := by rw [← hw]; rfl
  cases h with
  | mk ds fs ex next hds hfs hex hn hne =>
    have hdot : Stops Digit (c! '.' :: (fs ++ ex) ++ next) := by intro c hc; simp at hc; subst hc; simp [Digit]
    unfold lexNumber
    dsimp only
    rw [e, show ds ++ c! '.' :: (fs ++ ex) ++ next = ds ++ (c! '.' :: (fs ++ ex) ++ next) by simp, scan_digits hds.2 hdot]
    have hns : Stops Digit (ex ++ next) := by
      cases hex with
      | none => exact hn
      | some e sign ds he => intro c hc; simp at hc; subst hc; rcases he with rfl | rfl <;> simp [Digit]
    have hfs' : Rd.takeWhile isDigit (Rd.get ⟨ds.reverse ++ b, c! '.' :: (fs ++ ex) ++ next⟩).2 =
        (fs, ⟨fs.reverse ++ c! '.' :: (ds.reverse ++ b), ex ++ next⟩) := by
      simp only [List.cons_append, Rd.get_cons, List.append_assoc]
      exact scan_digits hfs hns
    simp only [Rd.look, List.cons_append, List.head?_cons, Bool.not_true, Bool.false_or]
    rw [if_neg (by simp)]
    simp only [List.cons_append] at hfs'
    simp only [hfs']
    cases hex with
    | none =>
      simp only [List.nil_append, List.append_nil] at hf ⊢
      cases next with
      | nil => simp [hf]
      | cons c cs =>
        have hc := hne rfl c rfl
        simp only [not_or] at hc
        simp [hc, hf]
    | some e sign es he hs hes =>
      simp only [List.cons_append, Rd.get_cons]
      rw [if_pos (by rcases he with rfl | rfl <;> simp)]
      have key : ∀ {b : Bytes}, Rd.takeWhile isDigit ⟨b, es ++ next⟩ = (es, ⟨es.reverse ++ b, next⟩) := scan_digits hes.2 hn
      have hne : es.isEmpty = false := by have := hes.1; cases es <;> simp_all
      rcases hs with rfl | rfl | rfl
      · obtain ⟨d', es', rfl⟩ : ∃ d' es', es = d' :: es' := by
          cases es with
          | nil => exact absurd rfl hes.1
          | cons d' es' => exact ⟨d', es', rfl⟩
        have hd' := hes.2 d' (by simp)
        have h1 : d' ≠ c! '+' := by rintro rfl; simp [Digit] at hd'
        have h2 : d' ≠ c! '-' := by rintro rfl; simp [Digit] at hd'
        simp only [List.nil_append, List.cons_append] at hf key ⊢
        simp [h1, h2, key, hf]
      · simp only [List.cons_append, List.nil_append] at hf ⊢
        simp [key, hes.1, hf]
      · simp only [List.cons_append, List.nil_append] at hf ⊢
        simp [key, hes.1, hf]

theorem lexNumber_inv {real : Bool} {d : UInt8} {b rest : Bytes} {lx : Lexeme} {r : Rd} (hd : Digit d)
    (h : lexNumber env real ⟨d :: b, rest⟩ = (lx, r)) (he : lx.err = none) :
    ∃ w, d :: rest = w ++ r.rest ∧ r.before = w.reverse ++ b ∧ Stops Digit r.rest ∧
      ((Digits w ∧ (real = true → r.rest.head? ≠ some (c! '.')) ∧ decimal w < 2 ^ 63 ∧ lx = intTok (Int64.ofNat (decimal w))) ∨
       (real = true ∧ ∃ f, RealText w r.rest ∧ env.parseFloat w = some f ∧ lx = realTok f)) := by
  obtain ⟨ds, next, hds, hn, e1, e2⟩ := digits_scan (b := b) (rest := rest) hd
  unfold lexNumber at h
  dsimp only at h
  rw [e2] at h
  simp only at h
  by_cases hr : (!real || (Rd.look ⟨ds.reverse ++ b, next⟩ != some (c! '.'))) = true
  · rw [if_pos hr, parseInt_digits hds] at h
    by_cases hv : decimal ds < 2 ^ 63
    · rw [if_pos hv] at h
      cases h
      refine ⟨ds, e1, rfl, hn, .inl ⟨hds, ?_, hv, rfl⟩⟩
      rintro rfl
      simpa [Rd.look] using hr
    · rw [if_neg hv] at h
      cases h
      simp [Lexeme.fail] at he
  · rw [if_neg hr] at h
    have hreal : real = true := by cases real <;> simp_all
    obtain ⟨x, rfl⟩ : ∃ x, next = c! '.' :: x := by
      cases next with
      | nil => simp [Rd.look] at hr
      | cons c x => simp [Rd.look] at hr; exact ⟨x, by rw [hr.2]⟩
    have hfs := takeWhile_split (p := isDigit) (q := Digit) (fun _ => isDigit_iff) x
    have hx : x = x.takeWhile isDigit ++ x.dropWhile isDigit := List.takeWhile_append_dropWhile.symm
    have e3 : Rd.takeWhile isDigit (Rd.get ⟨ds.reverse ++ b, c! '.' :: x⟩).2 =
        (x.takeWhile isDigit, ⟨(x.takeWhile isDigit).reverse ++ c! '.' :: (ds.reverse ++ b), x.dropWhile isDigit⟩) := by
      rw [Rd.get_cons, Rd.takeWhile_spec]
    rw [e3] at h
    generalize x.takeWhile isDigit = fs at *
    generalize x.dropWhile isDigit = y at *
    subst hx
    simp only at h
    have fin : ∀ {ex next : Bytes} {b' : Bytes}, Exponent ex → y = ex ++ next → Stops Digit next →
        (ex = [] → Stops (fun c => c = c! 'e' ∨ c = c! 'E') next) → b' = (ds ++ c! '.' :: (fs ++ ex)).reverse ++ b →
        (env.parseFloat (ds ++ c! '.' :: (fs ++ ex)) = none → lx.err ≠ none) →
        (∀ f, env.parseFloat (ds ++ c! '.' :: (fs ++ ex)) = some f → lx = realTok f ∧ r = ⟨b', next⟩) →
        ∃ w, d :: rest = w ++ r.rest ∧ r.before = w.reverse ++ b ∧ Stops Digit r.rest ∧
      ((Digits w ∧ (real = true → r.rest.head? ≠ some (c! '.')) ∧ decimal w < 2 ^ 63 ∧ lx = intTok (Int64.ofNat (decimal w))) ∨
       (real = true ∧ ∃ f, RealText w r.rest ∧ env.parseFloat w = some f ∧ lx = realTok f)) := by
      intro ex next b' h1 h2 h3 h4 h5 h6 h7
      cases hp : env.parseFloat (ds ++ c! '.' :: (fs ++ ex)) with
      | none => exact absurd he (h6 hp)
      | some f =>
        obtain ⟨rfl, rfl⟩ := h7 f hp
        refine ⟨ds ++ c! '.' :: (fs ++ ex), ?_, h5, h3, .inr ⟨hreal, f, .mk _ _ _ _ hds hfs.1 h1 h3 h4, hp, rfl⟩⟩
        rw [e1, h2]; simp
    cases y with
    | nil =>
      simp only [Rd.get_nil] at h
      refine fin (ex := []) (next := []) .none (by simp) hfs.2 (fun _ => by intro c hc; simp at hc) rfl ?_ ?_
      · intro hp; simp at hp; simp only [hp] at h; cases h; simp [Lexeme.fail]
      · intro f hp; simp at hp; simp only [hp] at h; cases h; simp
    | cons e y =>
      simp only [Rd.get_cons] at h
      by_cases hee : e = c! 'e' ∨ e = c! 'E'
      · rw [if_pos (by simpa using hee)] at h
        have fin' : ∀ {sign z : Bytes}, (sign = [] ∨ sign = [c! '+'] ∨ sign = [c! '-']) → y = sign ++ z →
            (z.takeWhile isDigit = [] → lx.err ≠ none) →
            (z.takeWhile isDigit ≠ [] → env.parseFloat (ds ++ c! '.' :: fs ++ e :: sign ++ z.takeWhile isDigit) = none → lx.err ≠ none) →
            (z.takeWhile isDigit ≠ [] → ∀ f, env.parseFloat (ds ++ c! '.' :: fs ++ e :: sign ++ z.takeWhile isDigit) = some f → lx = realTok f ∧
              r = ⟨(z.takeWhile isDigit).reverse ++ (sign.reverse ++ e :: (fs.reverse ++ c! '.' :: (ds.reverse ++ b))), z.dropWhile isDigit⟩) →
            ∃ w, d :: rest = w ++ r.rest ∧ r.before = w.reverse ++ b ∧ Stops Digit r.rest ∧
      ((Digits w ∧ (real = true → r.rest.head? ≠ some (c! '.')) ∧ decimal w < 2 ^ 63 ∧ lx = intTok (Int64.ofNat (decimal w))) ∨
       (real = true ∧ ∃ f, RealText w r.rest ∧ env.parseFloat w = some f ∧ lx = realTok f)) := by
          intro sign z hs hy h1 h2 h3
          have hz := takeWhile_split (p := isDigit) (q := Digit) (fun _ => isDigit_iff) z
          have hz' : z = z.takeWhile isDigit ++ z.dropWhile isDigit := List.takeWhile_append_dropWhile.symm
          by_cases hes : z.takeWhile isDigit = []
          · exact absurd he (h1 hes)
          · refine fin (ex := e :: (sign ++ z.takeWhile isDigit)) (next := z.dropWhile isDigit)
              (.some e sign _ hee hs ⟨hes, hz.1⟩) ?_ hz.2 (fun h => by simp at h) rfl ?_ ?_
            · rw [hy]; simp
            · intro hp; exact h2 hes (by simpa using hp)
            · intro f hp
              have := h3 hes f (by simpa using hp)
              simpa using this
        cases y with
        | nil =>
          simp [Rd.get_nil, Rd.takeWhile_spec] at h
          refine fin' (sign := []) (z := []) (.inl rfl) rfl ?_ ?_ ?_
          · intro _; rw [← h.1]; simp [Lexeme.fail]
          · intro hz; simp at hz
          · intro hz; simp at hz
        | cons s y =>
          by_cases hs : s = c! '+' ∨ s = c! '-'
          · have hsb : (s == c! '+' || s == c! '-') = true := by simpa using hs
            simp only [Rd.get_cons, hsb, if_true, Rd.takeWhile_spec] at h
            refine fin' (sign := [s]) (z := y) ?_ rfl ?_ ?_ ?_
            · rcases hs with rfl | rfl
              · exact .inr (.inl rfl)
              · exact .inr (.inr rfl)
            · intro hz; simp [hz] at h; rw [← h.1]; simp [Lexeme.fail]
            · intro hz hp; simp at hp; simp [hz, hp] at h; rw [← h.1]; simp [Lexeme.fail]
            · intro hz f hp; simp at hp; simp [hz, hp] at h; rw [← h.1, ← h.2]; simp
          · have hsb : (s == c! '+' || s == c! '-') = false := by simpa using hs
            simp only [Rd.get_cons, hsb, Bool.false_eq_true, if_false, Rd.takeWhile_spec] at h
            refine fin' (sign := []) (z := s :: y) (.inl rfl) rfl ?_ ?_ ?_
            · intro hz; simp only [hz] at h; simp at h; rw [← h.1]; simp [Lexeme.fail]
            · intro hz hp; rw [if_neg (by simpa using hz)] at h; simp only [List.append_assoc, List.cons_append, List.nil_append] at hp h; simp only [hp] at h; cases h; simp [Lexeme.fail]
            · intro hz f hp; rw [if_neg (by simpa using hz)] at h; simp only [List.append_assoc, List.cons_append, List.nil_append] at hp h; simp only [hp] at h; cases h; simp
      · rw [if_neg (by simpa using hee)] at h
        refine fin (ex := []) (next := e :: y) .none (by simp) hfs.2 (fun _ => ?_) rfl ?_ ?_
        · intro c hc
          simp at hc; subst hc; exact hee
        · intro hp; simp at hp; simp only [hp] at h; cases h; simp [Lexeme.fail]
        · intro f hp; simp at hp; simp only [hp] at h; cases h; simp

/-! ### Tokens of paths -/

theorem lexPath_eof {b text : Bytes} : (∃ r, lexPath env ⟨b, text⟩ = some (.plain .eof, r)) ↔ White text := by
  obtain ⟨g, next, hg, hn, e1, e2⟩ := Rd.ws_split ⟨b, text⟩
  simp only at e1 e2
  subst e1
  unfold lexPath
  rw [e2]
  cases next with
  | nil => simpa using hg
  | cons c cs =>
    constructor
    · rintro ⟨r, h⟩
      exfalso
      have : ∀ {x : Lexeme × Rd}, some x = some (Lexeme.plain .eof, r) → x.1.tok = .eof := by
        rintro x ⟨rfl⟩; rfl
      have hi : ∀ {c : UInt8} {t f : Tok} {r : Rd}, t ≠ .eof → f ≠ .eof → (isNext c t f r).1.tok ≠ .eof := by
        intro c t f r h1 h2
        unfold isNext
        split
        · exact h1
        · split
          · simp [Lexeme.fail]
          · exact h2
      have hnum : ∀ {real : Bool} {r : Rd}, (lexNumber env real r).1.tok ≠ .eof := by
        intro real r
        unfold lexNumber
        dsimp only
        repeat' split
        all_goals simp [Lexeme.fail]
      have hq : ∀ {q : UInt8} {r r' : Rd}, lexQuoted q r ≠ some (Lexeme.plain .eof, r') := by
        intro q r r' h
        unfold lexQuoted at h
        split at h <;> simp [Lexeme.fail, Lexeme.plain] at h
      rw [Rd.get_cons] at h
      simp only at h
      repeat' split at h
      all_goals first
        | exact hq h
        | exact hi (by simp) (by simp) (this h)
        | exact hnum (this h)
        | (have := this h; simp [Lexeme.plain, tokenErr, Lexeme.fail, lexID] at this; done)
        | simp at h
      all_goals exact hnum (congrArg Lexeme.tok h.1)
    · intro h
      exact absurd (h c (by simp)) (hn c rfl)

theorem Spec.Letter.not_space {c : UInt8} (h : Letter c) : ¬ Space c := by
  rintro (rfl | rfl | rfl | rfl | rfl | rfl) <;> simp [Letter] at h
theorem Spec.Digit.not_space {c : UInt8} (h : Digit c) : ¬ Space c := by
  rintro (rfl | rfl | rfl | rfl | rfl | rfl) <;> simp [Digit] at h

theorem lexPath_at {b g cs : Bytes} {c : UInt8} (hg : White g) (hc : ¬ Space c) :
    (Rd.ws ⟨b, g ++ c :: cs⟩).get = (some c, ⟨c :: (g.reverse ++ b), cs⟩) := by
  rw [Rd.ws_all hg (by intro d hd; simp at hd; subst hd; exact hc)]
  rfl

theorem lexPath_of {lx : Lexeme} {w next : Bytes} (h : PathWord lx w next) {g : Bytes} (hg : White g) (b : Bytes) :
    lexPath env ⟨b, g ++ (w ++ next)⟩ = some (lx, ⟨(g ++ w).reverse ++ b, next⟩) := by
  cases h with
  | punct c next hc =>
    simp at hc
    rcases hc with rfl | rfl | rfl | rfl | rfl | rfl | rfl | rfl <;>
    · unfold lexPath
      rw [List.singleton_append, lexPath_at hg (by simp [Space])]
      simp [isPathPunct]
  | dot next hn =>
    unfold lexPath
    rw [List.singleton_append, lexPath_at hg (by simp [Space])]
    have : next.head? ≠ some 46 := fun e => hn _ e rfl
    simp [isPathPunct, isNext, Rd.look, this]
  | nest =>
    unfold lexPath
    simp only [List.cons_append, List.nil_append]
    rw [lexPath_at hg (by simp [Space])]
    simp [isPathPunct, isNext, Rd.look, Rd.get]
  | filter =>
    unfold lexPath
    simp only [List.cons_append, List.nil_append]
    rw [lexPath_at hg (by simp [Space])]
    simp [isPathPunct, isNext, Rd.look, Rd.get]
  | str w v next hs =>
    cases hs with
    | single t v h =>
      unfold lexPath
      simp only [List.cons_append, List.append_assoc, List.nil_append]
      rw [lexPath_at hg (by simp [Space])]
      have := lexQuoted_of (.inr rfl) h (g.reverse ++ b) next
      simp only [isPathPunct]
      simp [this]
    | double t v h =>
      unfold lexPath
      simp only [List.cons_append, List.append_assoc, List.nil_append]
      rw [lexPath_at hg (by simp [Space])]
      have := lexQuoted_of (.inl rfl) h (g.reverse ++ b) next
      simp only [isPathPunct]
      simp [this]
  | int _ _ hd hn hv =>
    obtain ⟨d, ds, rfl⟩ : ∃ d ds', w = d :: ds' := by
      cases w with
      | nil => exact absurd rfl hd.1
      | cons d ds => exact ⟨d, ds, rfl⟩
    have hdd := hd.2 d (by simp)
    unfold lexPath
    rw [List.cons_append, lexPath_at hg hdd.not_space]
    have key := lexNumber_int (env := env) (real := false) (b := g.reverse ++ b) hd hn (by simp) hv
    have n1 : ∀ c, ¬ Digit c → d ≠ c := by rintro c hc rfl; exact hc hdd
    simp only [isPathPunct]
    simp [n1 40 (by simp [Digit]), n1 41 (by simp [Digit]), n1 91 (by simp [Digit]), n1 93 (by simp [Digit]),
      n1 42 (by simp [Digit]), n1 36 (by simp [Digit]), n1 58 (by simp [Digit]), n1 44 (by simp [Digit]),
      n1 46 (by simp [Digit]), n1 63 (by simp [Digit]), n1 34 (by simp [Digit]), n1 39 (by simp [Digit]),
      n1 45 (by simp [Digit]), isDigit_iff.mpr hdd, key]
  | neg w ds next hw hd hn hv =>
    obtain ⟨d, ds, rfl⟩ : ∃ d ds', ds = d :: ds' := by
      cases ds with
      | nil => exact absurd rfl hd.1
      | cons d ds => exact ⟨d, ds, rfl⟩
    have hdd := hd.2 d (by simp)
    have key := lexNumber_int (env := env) (real := false) (b := w.reverse ++ c! '-' :: (g.reverse ++ b)) hd hn (by simp) (by omega)
    have hmax : Int64.ofNat (decimal (d :: ds)) ≠ Int64.maxValue := by
      intro e
      have := congrArg Int64.toInt e
      rw [Int64.toInt_ofNat_of_lt (by omega)] at this
      have hm : Int64.maxValue.toInt = 2 ^ 63 - 1 := rfl
      omega
    unfold lexPath
    simp only [List.cons_append, List.append_assoc]
    rw [lexPath_at hg (by simp [Space])]
    have hp : isPathPunct 45 = false := rfl
    simp only [hp, lexPath_at hw hdd.not_space]
    simp [isDigit_iff.mpr hdd, key, hmax]
  | name c w next hc hw hn =>
    unfold lexPath
    rw [List.cons_append, lexPath_at hg hc.not_space]
    have n1 : ∀ d, ¬ Letter d → c ≠ d := by rintro d hd rfl; exact hd hc
    have n2 : isDigit c = false := by
      cases h : isDigit c with
      | false => rfl
      | true =>
        have h := isDigit_iff.mp h
        exfalso
        simp only [Letter, Digit, UInt8.le_iff_toNat_le, ← UInt8.toNat_inj] at h hc
        simp at h hc
        omega
    have key := Rd.takeWhile_all (p := isAlphanumericDash) (q := LetterDigitDash) (b := g.reverse ++ b) (fun _ => isAlphanumericDash_iff)
      (w := c :: w) (next := next) (by intro d hd; simp at hd; rcases hd with rfl | hd; exact .inl hc; exact hw d hd) hn
    have hu : Rd.unget ⟨c :: (g.reverse ++ b), w ++ next⟩ = ⟨g.reverse ++ b, c :: w ++ next⟩ := rfl
    simp only [isPathPunct]
    simp [n1 40 (by simp [Letter]), n1 41 (by simp [Letter]), n1 91 (by simp [Letter]), n1 93 (by simp [Letter]),
      n1 42 (by simp [Letter]), n1 36 (by simp [Letter]), n1 58 (by simp [Letter]), n1 44 (by simp [Letter]),
      n1 46 (by simp [Letter]), n1 63 (by simp [Letter]), n1 34 (by simp [Letter]), n1 39 (by simp [Letter]),
      n1 45 (by simp [Letter]), n2, isLetter_iff.mpr hc, lexID, hu]
    simp at key
    simp [key]

/-- A literal at the end of a text whose closing quote is missing: the quote of its last escape is taken twice. -/
def Unclosed (w v : Bytes) : Prop :=
  ∃ q t, Quote q ∧ w = q :: (t ++ [c! '\\', q]) ∧ StrLit (w ++ [q]) v

/-- What a scanner at `⟨b, text⟩` that ended at `r` with the token `lx` has read. -/
def ReadAs (word : Lexeme → Bytes → Bytes → Prop) (b text : Bytes) (lx : Lexeme) (r : Rd) : Prop :=
  ∃ g w, White g ∧ text = g ++ (w ++ r.rest) ∧ r.before = (g ++ w).reverse ++ b ∧
    (word lx w r.rest ∨ (r.rest = [] ∧ ∃ v, lx = strTok v ∧ Unclosed w v))

theorem readAs_quoted {word : Lexeme → Bytes → Bytes → Prop} (hw : ∀ w v next, StrLit w v → word (strTok v) w next)
    {q : UInt8} (hq : Quote q) {b g rest : Bytes} {lx : Lexeme} {r : Rd} (hg : White g)
    (h : lexQuoted q ⟨q :: (g.reverse ++ b), rest⟩ = some (lx, r)) (he : lx.err = none) :
    ReadAs word b (g ++ q :: rest) lx r := by
  obtain ⟨t, v, h1, rfl, h2⟩ := lexQuoted_inv hq h he
  rcases h2 with ⟨rfl, h2⟩ | ⟨rfl, rfl, t', rfl⟩
  · refine ⟨g, q :: (t ++ [q]), hg, by simp, by simp [h2], .inl (hw _ _ _ (h1.lit hq))⟩
  · refine ⟨g, _, hg, ?_, ?_, .inr ⟨rfl, v, rfl, q, t', hq, rfl, ?_⟩⟩
    · simp
    · simp
    · have := h1.lit hq
      simpa using this

theorem isNext_inv {c : UInt8} {t f : Tok} {b rest : Bytes} {lx : Lexeme} {r : Rd} (h : isNext c t f ⟨b, rest⟩ = (lx, r)) (he : lx.err = none) :
    (lx = .plain t ∧ rest = c :: r.rest ∧ r.before = c :: b) ∨ (lx = .plain f ∧ f ≠ .error ∧ r = ⟨b, rest⟩ ∧ rest.head? ≠ some c) := by
  unfold isNext at h
  split at h
  · next hl =>
    cases rest with
    | nil => simp [Rd.look] at hl
    | cons d ds =>
      simp [Rd.look] at hl
      subst hl
      cases h
      exact .inl ⟨rfl, rfl, rfl⟩
  · next hl =>
    split at h
    · cases h; simp [Lexeme.fail] at he
    · next hf => cases h; exact .inr ⟨rfl, by simpa using hf, rfl, by simpa [Rd.look] using hl⟩

theorem lexPath_inv {b text : Bytes} {lx : Lexeme} {r : Rd} (h : lexPath env ⟨b, text⟩ = some (lx, r)) (he : lx.err = none)
    (ht : lx.tok ≠ .eof) : ReadAs PathWord b text lx r := by
  obtain ⟨g, next, hg, hn, e1, e2⟩ := Rd.ws_split ⟨b, text⟩
  simp only at e1 e2
  subst e1
  unfold lexPath at h
  rw [e2] at h
  cases next with
  | nil => simp at h; rw [← h.1] at ht; simp [Lexeme.plain] at ht
  | cons c cs =>
    have hc : ¬ Space c := hn c rfl
    rw [Rd.get_cons] at h
    simp only at h
    by_cases h1 : isPathPunct c = true
    · rw [if_pos h1] at h
      cases h
      refine ⟨g, [c], hg, rfl, by simp, .inl (.punct c _ ?_)⟩
      simp only [isPathPunct, Bool.or_eq_true, beq_iff_eq] at h1
      simp
      rcases h1 with ((((((h1 | h1) | h1) | h1) | h1) | h1) | h1) | h1 <;> simp [h1]
    rw [if_neg h1] at h
    by_cases h2 : c = c! '.'
    · subst h2
      rw [if_pos (by simp)] at h
      simp only [Option.some.injEq] at h
      rcases isNext_inv h he with ⟨rfl, h3, h4⟩ | ⟨rfl, h3, rfl, h4⟩
      · exact ⟨g, b! "..", hg, by simp [h3], by simp [h4], .inl (.nest _)⟩
      · exact ⟨g, b! ".", hg, rfl, by simp, .inl (.dot _ (fun d hd e => h4 (by rw [hd, e])))⟩
    rw [if_neg (by simpa using h2)] at h
    by_cases h3 : c = c! '?'
    · subst h3
      rw [if_pos (by simp)] at h
      simp only [Option.some.injEq] at h
      rcases isNext_inv h he with ⟨rfl, h3, h4⟩ | ⟨rfl, h3, rfl, h4⟩
      · exact ⟨g, b! "?(", hg, by simp [h3], by simp [h4], .inl (.filter _)⟩
      · simp at h3
    rw [if_neg (by simpa using h3)] at h
    by_cases h4 : c = c! '"' ∨ c = c! '\''
    · rw [if_pos (by simpa using h4)] at h
      exact readAs_quoted (fun w v next => .str w v next) h4 hg h he
    rw [if_neg (by simpa using h4)] at h
    by_cases h5 : c = c! '-'
    · subst h5
      rw [if_pos (by simp)] at h
      obtain ⟨g', next, hg', hn', e3, e4⟩ := Rd.ws_split ⟨c! '-' :: (g.reverse ++ b), cs⟩
      simp only at e3 e4
      subst e3
      rw [e4] at h
      cases next with
      | nil => simp [tokenErr] at h; rw [← h.1] at he; simp [Lexeme.fail] at he
      | cons d ds =>
        rw [Rd.get_cons] at h
        simp only at h
        by_cases hd : isDigit d = true
        · rw [if_neg (by simp [hd])] at h
          have hd' := isDigit_iff.mp hd
          cases hl : lexNumber env false ⟨d :: (g'.reverse ++ c! '-' :: (g.reverse ++ b)), ds⟩ with
          | mk fol r1 =>
            rw [hl] at h
            simp only at h
            by_cases hf : fol.tok = .int
            · rw [if_neg (by simpa using hf)] at h
              have hferr : fol.err = none := by
                have := lexNumber_shape env false ⟨d :: (g'.reverse ++ c! '-' :: (g.reverse ++ b)), ds⟩
                rw [hl] at this
                cases this <;> simp_all [Lexeme.fail]
              obtain ⟨w, k1, k2, k3, k4⟩ := lexNumber_inv hd' hl hferr
              rcases k4 with ⟨k4, k5, k6, rfl⟩ | ⟨k4, _⟩
              · simp only at h
                by_cases hm : Int64.ofNat (decimal w) = Int64.maxValue
                · rw [if_pos (by simpa using hm)] at h
                  cases h; simp [Lexeme.fail] at he
                · rw [if_neg (by simpa using hm)] at h
                  cases h
                  refine ⟨g, c! '-' :: (g' ++ w), hg, by rw [k1]; simp, by simp [k2], .inl (.neg g' w _ hg' k4 k3 ?_)⟩
                  rcases Nat.lt_or_ge (decimal w) (2 ^ 63 - 1) with hlt | hge
                  · exact hlt
                  · exfalso
                    have : decimal w = 2 ^ 63 - 1 := by omega
                    exact hm (by rw [this]; rfl)
              · cases k4
            · rw [if_pos (by simpa using hf)] at h
              cases h; simp [Lexeme.fail] at he
        · rw [if_pos (by simp [hd])] at h
          simp [tokenErr] at h; rw [← h.1] at he; simp [Lexeme.fail] at he
    rw [if_neg (by simpa using h5)] at h
    by_cases h6 : isDigit c = true
    · rw [if_pos h6] at h
      simp only [Option.some.injEq] at h
      obtain ⟨w, k1, k2, k3, k4⟩ := lexNumber_inv (isDigit_iff.mp h6) h he
      rcases k4 with ⟨k4, k5, k6, rfl⟩ | ⟨k4, _⟩
      · exact ⟨g, w, hg, by rw [k1], by simp [k2], .inl (.int w _ k4 k3 k6)⟩
      · cases k4
    rw [if_neg h6] at h
    by_cases h7 : isLetter c = true
    · rw [if_pos h7] at h
      simp only [Option.some.injEq, lexID] at h
      have hs := takeWhile_split (p := isAlphanumericDash) (q := LetterDigitDash) (fun _ => isAlphanumericDash_iff) cs
      have hcs : cs = cs.takeWhile isAlphanumericDash ++ cs.dropWhile isAlphanumericDash := List.takeWhile_append_dropWhile.symm
      have hu : Rd.unget ⟨c :: (g.reverse ++ b), cs⟩ = ⟨g.reverse ++ b, c :: cs⟩ := rfl
      have hlc : isAlphanumericDash c = true := isAlphanumericDash_iff.mpr (.inl (isLetter_iff.mp h7))
      rw [hu, Rd.takeWhile_spec] at h
      simp only [List.takeWhile_cons, List.dropWhile_cons, hlc, if_true] at h
      cases h
      refine ⟨g, c :: cs.takeWhile isAlphanumericDash, hg, ?_, by simp, .inl (.name c _ _ (isLetter_iff.mp h7) hs.1 hs.2)⟩
      simp
    rw [if_neg h7] at h
    cases h; simp [Lexeme.fail] at he

/-! ### Tokens of expressions -/

theorem lexExpr_eof {b text : Bytes} : (∃ r, lexExpr env ⟨b, text⟩ = some (.plain .eof, r)) ↔ White text := by
  obtain ⟨g, next, hg, hn, e1, e2⟩ := Rd.ws_split ⟨b, text⟩
  simp only at e1 e2
  subst e1
  unfold lexExpr
  rw [e2]
  cases next with
  | nil => simpa using hg
  | cons c cs =>
    constructor
    · rintro ⟨r, h⟩
      exfalso
      have : ∀ {x : Lexeme × Rd}, some x = some (Lexeme.plain .eof, r) → x.1.tok = .eof := by
        rintro x ⟨rfl⟩; rfl
      have hi : ∀ {c : UInt8} {t f : Tok} {r : Rd}, t ≠ .eof → f ≠ .eof → (isNext c t f r).1.tok ≠ .eof := by
        intro c t f r h1 h2
        unfold isNext
        split
        · exact h1
        · split
          · simp [Lexeme.fail]
          · exact h2
      have hnum : ∀ {real : Bool} {r : Rd}, (lexNumber env real r).1.tok ≠ .eof := by
        intro real r
        unfold lexNumber
        dsimp only
        repeat' split
        all_goals simp [Lexeme.fail]
      have hq : ∀ {q : UInt8} {r r' : Rd}, lexQuoted q r ≠ some (Lexeme.plain .eof, r') := by
        intro q r r' h
        unfold lexQuoted at h
        split at h <;> simp [Lexeme.fail, Lexeme.plain] at h
      rw [Rd.get_cons] at h
      simp only at h
      repeat' split at h
      all_goals first
        | exact hq h
        | exact hi (by simp) (by simp) (this h)
        | exact hnum (this h)
        | (have := this h; simp [Lexeme.plain, tokenErr, Lexeme.fail, lexID] at this; done)
    · intro h
      exact absurd (h c (by simp)) (hn c rfl)

theorem isDigit_of_letter {c : UInt8} (hc : Letter c) : isDigit c = false := by
  cases h : isDigit c with
  | false => rfl
  | true =>
    have h := isDigit_iff.mp h
    exfalso
    simp only [Letter, Digit, UInt8.le_iff_toNat_le, ← UInt8.toNat_inj] at h hc
    simp at h hc
    omega

theorem isExprPunct_of {c : UInt8} {p : UInt8 → Prop} (hc : p c) (h : ∀ d ∈ b! "()[]@$.,~*%+-/", ¬ p d) : isExprPunct c = false := by
  have n1 : ∀ d ∈ b! "()[]@$.,~*%+-/", c ≠ d := by rintro d hd rfl; exact h _ hd hc
  simp only [List.mem_cons, List.not_mem_nil, or_false, ne_eq, forall_eq_or_imp, forall_eq] at n1
  obtain ⟨a1, a2, a3, a4, a5, a6, a7, a8, a9, a10, a11, a12, a13, a14⟩ := n1
  simp [isExprPunct, *]

theorem lexExpr_of {lx : Lexeme} {w next : Bytes} (h : ExprWord env.parseFloat lx w next) {g : Bytes} (hg : White g) (b : Bytes) :
    lexExpr env ⟨b, g ++ (w ++ next)⟩ = some (lx, ⟨(g ++ w).reverse ++ b, next⟩) := by
  cases h with
  | punct c next hc =>
    simp at hc
    rcases hc with rfl | rfl | rfl | rfl | rfl | rfl | rfl | rfl | rfl | rfl | rfl | rfl | rfl | rfl <;>
    · unfold lexExpr
      rw [List.singleton_append, lexPath_at hg (by simp [Space])]
      simp [isExprPunct]
  | alone c d next hc hn =>
    rcases hc with ⟨rfl, rfl⟩ | ⟨rfl, rfl⟩ | ⟨rfl, rfl⟩ | ⟨rfl, rfl⟩ | ⟨rfl, rfl⟩ | ⟨rfl, rfl⟩
    all_goals
      unfold lexExpr
      rw [List.singleton_append, lexPath_at hg (by simp [Space])]
      have hn' : ∀ d, next.head? = some d → _ := fun d hd => hn d hd
      simp at hn'
    · have : next.head? ≠ some 38 := fun e => hn' _ e rfl
      simp [isExprPunct, isNext, Rd.look, this]
    · have : next.head? ≠ some 124 := fun e => hn' _ e rfl
      simp [isExprPunct, isNext, Rd.look, this]
    · have : next.head? ≠ some 61 := fun e => hn' _ e rfl
      simp [isExprPunct, isNext, Rd.look, this]
    · have : next.head? ≠ some 61 := fun e => hn' _ e rfl
      simp [isExprPunct, isNext, Rd.look, this]
    · have h1 : next.head? ≠ some 61 := fun e => (hn' _ e).1 rfl
      have h2 : next.head? ≠ some 126 := fun e => (hn' _ e).2 rfl
      simp [isExprPunct, isNext, Rd.look, h1, h2, Lexeme.plain]
    · have : next.head? ≠ some 61 := fun e => hn' _ e rfl
      simp [isExprPunct, isNext, Rd.look, this]
  | str w v next hs =>
    cases hs with
    | single t v h =>
      unfold lexExpr
      simp only [List.cons_append, List.append_assoc, List.nil_append]
      rw [lexPath_at hg (by simp [Space])]
      have := lexQuoted_of (.inr rfl) h (g.reverse ++ b) next
      simp only [isExprPunct]
      simp [this]
    | double t v h =>
      unfold lexExpr
      simp only [List.cons_append, List.append_assoc, List.nil_append]
      rw [lexPath_at hg (by simp [Space])]
      have := lexQuoted_of (.inl rfl) h (g.reverse ++ b) next
      simp only [isExprPunct]
      simp [this]
  | int _ _ hd hn hv =>
    obtain ⟨d, ds, rfl⟩ : ∃ d ds', w = d :: ds' := by
      cases w with
      | nil => exact absurd rfl hd.1
      | cons d ds => exact ⟨d, ds, rfl⟩
    have hdd := hd.2 d (by simp)
    unfold lexExpr
    rw [List.cons_append, lexPath_at hg hdd.not_space]
    have key := lexNumber_int (env := env) (real := true) (b := g.reverse ++ b) hd (fun c hc h => hn c hc (.inl h))
      (fun _ e => hn _ e (.inr rfl)) hv
    have n1 : ∀ c, ¬ Digit c → d ≠ c := by rintro c hc rfl; exact hc hdd
    simp only [isExprPunct_of hdd (by simp [Digit])]
    simp [n1 38 (by simp [Digit]), n1 124 (by simp [Digit]), n1 60 (by simp [Digit]), n1 62 (by simp [Digit]),
      n1 61 (by simp [Digit]), n1 33 (by simp [Digit]), n1 34 (by simp [Digit]), n1 39 (by simp [Digit]),
      isDigit_iff.mpr hdd, key]
  | real _ f _ hr hf =>
    obtain ⟨d, w, rfl, hdd⟩ : ∃ d w', w = d :: w' ∧ Digit d := by
      cases hr with
      | mk ds fs ex next hds =>
        cases ds with
        | nil => exact absurd rfl hds.1
        | cons d ds => exact ⟨d, _, rfl, hds.2 d (by simp)⟩
    unfold lexExpr
    rw [List.cons_append, lexPath_at hg hdd.not_space]
    have key := lexNumber_real (env := env) (b := g.reverse ++ b) hr hf
    have n1 : ∀ c, ¬ Digit c → d ≠ c := by rintro c hc rfl; exact hc hdd
    simp only [isExprPunct_of hdd (by simp [Digit])]
    simp [n1 38 (by simp [Digit]), n1 124 (by simp [Digit]), n1 60 (by simp [Digit]), n1 62 (by simp [Digit]),
      n1 61 (by simp [Digit]), n1 33 (by simp [Digit]), n1 34 (by simp [Digit]), n1 39 (by simp [Digit]),
      isDigit_iff.mpr hdd, key]
  | name c w next hc hw hn =>
    unfold lexExpr
    rw [List.cons_append, lexPath_at hg hc.not_space]
    have n1 : ∀ d, ¬ Letter d → c ≠ d := by rintro d hd rfl; exact hd hc
    have key := Rd.takeWhile_all (p := isAlphanumeric) (q := LetterDigit) (b := g.reverse ++ b) (fun _ => isAlphanumeric_iff)
      (w := c :: w) (next := next) (by intro d hd; simp at hd; rcases hd with rfl | hd; exact .inl hc; exact hw d hd) hn
    have hu : Rd.unget ⟨c :: (g.reverse ++ b), w ++ next⟩ = ⟨g.reverse ++ b, c :: w ++ next⟩ := rfl
    simp only [isExprPunct_of hc (by simp [Letter])]
    simp [n1 38 (by simp [Letter]), n1 124 (by simp [Letter]), n1 60 (by simp [Letter]), n1 62 (by simp [Letter]),
      n1 61 (by simp [Letter]), n1 33 (by simp [Letter]), n1 34 (by simp [Letter]), n1 39 (by simp [Letter]),
      isDigit_of_letter hc, isLetter_iff.mpr hc, lexID, hu]
    simp at key
    simp [key]
  | _ =>
    unfold lexExpr
    simp only [List.cons_append, List.nil_append]
    rw [lexPath_at hg (by simp [Space])]
    simp [isExprPunct, isNext, Rd.look, Rd.get, Lexeme.plain]

theorem lexExpr_inv {b text : Bytes} {lx : Lexeme} {r : Rd} (h : lexExpr env ⟨b, text⟩ = some (lx, r)) (he : lx.err = none)
    (ht : lx.tok ≠ .eof) : ReadAs (ExprWord env.parseFloat) b text lx r := by
  obtain ⟨g, next, hg, hn, e1, e2⟩ := Rd.ws_split ⟨b, text⟩
  simp only at e1 e2
  subst e1
  unfold lexExpr at h
  rw [e2] at h
  cases next with
  | nil => simp at h; rw [← h.1] at ht; simp [Lexeme.plain] at ht
  | cons c cs =>
    have hc : ¬ Space c := hn c rfl
    rw [Rd.get_cons] at h
    simp only at h
    by_cases h1 : isExprPunct c = true
    · rw [if_pos h1] at h
      cases h
      refine ⟨g, [c], hg, rfl, by simp, .inl (.punct c _ ?_)⟩
      simp only [isExprPunct, Bool.or_eq_true, beq_iff_eq] at h1
      simp
      simp only [or_assoc] at h1
      exact h1
    rw [if_neg h1] at h
    by_cases h2 : c = c! '&'
    · subst h2
      rw [if_pos (by simp)] at h
      simp only [Option.some.injEq] at h
      rcases isNext_inv h he with ⟨rfl, h3, h4⟩ | ⟨rfl, h3, rfl, h4⟩
      · exact ⟨g, b! "&&", hg, by simp [h3], by simp [h4], .inl (.and _)⟩
      · exact ⟨g, [_], hg, rfl, by simp, .inl (.alone _ (b! "&") _ (by simp) (fun d hd e => h4 (by simp at e; rw [hd, e])))⟩
    rw [if_neg (by simpa using h2)] at h
    by_cases h2 : c = c! '|'
    · subst h2
      rw [if_pos (by simp)] at h
      simp only [Option.some.injEq] at h
      rcases isNext_inv h he with ⟨rfl, h3, h4⟩ | ⟨rfl, h3, rfl, h4⟩
      · exact ⟨g, b! "||", hg, by simp [h3], by simp [h4], .inl (.or _)⟩
      · exact ⟨g, [_], hg, rfl, by simp, .inl (.alone _ (b! "|") _ (by simp) (fun d hd e => h4 (by simp at e; rw [hd, e])))⟩
    rw [if_neg (by simpa using h2)] at h
    by_cases h2 : c = c! '<'
    · subst h2
      rw [if_pos (by simp)] at h
      simp only [Option.some.injEq] at h
      rcases isNext_inv h he with ⟨rfl, h3, h4⟩ | ⟨rfl, h3, rfl, h4⟩
      · exact ⟨g, b! "<=", hg, by simp [h3], by simp [h4], .inl (.le _)⟩
      · exact ⟨g, [_], hg, rfl, by simp, .inl (.alone _ (b! "=") _ (by simp) (fun d hd e => h4 (by simp at e; rw [hd, e])))⟩
    rw [if_neg (by simpa using h2)] at h
    by_cases h2 : c = c! '>'
    · subst h2
      rw [if_pos (by simp)] at h
      simp only [Option.some.injEq] at h
      rcases isNext_inv h he with ⟨rfl, h3, h4⟩ | ⟨rfl, h3, rfl, h4⟩
      · exact ⟨g, b! ">=", hg, by simp [h3], by simp [h4], .inl (.ge _)⟩
      · exact ⟨g, [_], hg, rfl, by simp, .inl (.alone _ (b! "=") _ (by simp) (fun d hd e => h4 (by simp at e; rw [hd, e])))⟩
    rw [if_neg (by simpa using h2)] at h
    by_cases h2 : c = c! '='
    · subst h2
      rw [if_pos (by simp)] at h
      cases hi : isNext (c! '=') .eq (.ch (c! '=')) ⟨c! '=' :: (g.reverse ++ b), cs⟩ with
      | mk lx1 r1 =>
        rw [hi] at h
        simp only at h
        by_cases hx : lx1.tok = .ch (c! '=')
        · rw [if_neg (by simpa using hx)] at h
          simp only [Option.some.injEq] at h
          have hlx1 : lx1.err = none := by
            have := isNext_shape (c := c! '=') (t := .eq) (f := .ch (c! '=')) (r := ⟨c! '=' :: (g.reverse ++ b), cs⟩) rfl (.inr rfl)
            rw [hi] at this
            cases this <;> simp_all [Lexeme.fail, Lexeme.plain]
          rcases isNext_inv hi hlx1 with ⟨rfl, h3, h4⟩ | ⟨rfl, h3, rfl, h4⟩
          · simp [Lexeme.plain] at hx
          · rcases isNext_inv h he with ⟨rfl, h5, h6⟩ | ⟨rfl, h5, rfl, h6⟩
            · exact ⟨g, b! "=~", hg, by simp [h5], by simp [h6], .inl (.match_ _)⟩
            · refine ⟨g, [_], hg, rfl, by simp, .inl (.alone _ (b! "=~") _ (by simp) (fun d hd e => ?_))⟩
              simp at e
              rcases e with rfl | rfl
              · exact h4 hd
              · exact h6 hd
        · rw [if_pos (by simpa using hx)] at h
          cases h
          rcases isNext_inv hi he with ⟨rfl, h3, h4⟩ | ⟨rfl, h3, rfl, h4⟩
          · exact ⟨g, b! "==", hg, by simp [h3], by simp [h4], .inl (.eq _)⟩
          · simp [Lexeme.plain] at hx
    rw [if_neg (by simpa using h2)] at h
    by_cases h2 : c = c! '!'
    · subst h2
      rw [if_pos (by simp)] at h
      simp only [Option.some.injEq] at h
      rcases isNext_inv h he with ⟨rfl, h3, h4⟩ | ⟨rfl, h3, rfl, h4⟩
      · exact ⟨g, b! "!=", hg, by simp [h3], by simp [h4], .inl (.ne _)⟩
      · exact ⟨g, [_], hg, rfl, by simp, .inl (.alone _ (b! "=") _ (by simp) (fun d hd e => h4 (by simp at e; rw [hd, e])))⟩
    rw [if_neg (by simpa using h2)] at h
    by_cases h4 : c = c! '"' ∨ c = c! '\''
    · rw [if_pos (by simpa using h4)] at h
      exact readAs_quoted (fun w v next => .str w v next) h4 hg h he
    rw [if_neg (by simpa using h4)] at h
    by_cases h6 : isDigit c = true
    · rw [if_pos h6] at h
      simp only [Option.some.injEq] at h
      obtain ⟨w, k1, k2, k3, k4⟩ := lexNumber_inv (isDigit_iff.mp h6) h he
      rcases k4 with ⟨k4, k5, k6, rfl⟩ | ⟨k4, f, k5, k6, rfl⟩
      · refine ⟨g, w, hg, by rw [k1], by simp [k2], .inl (.int w _ k4 ?_ k6)⟩
        rintro d hd (e | rfl)
        · exact k3 d hd e
        · exact k5 rfl hd
      · exact ⟨g, w, hg, by rw [k1], by simp [k2], .inl (.real w f _ k5 k6)⟩
    rw [if_neg h6] at h
    by_cases h7 : isLetter c = true
    · rw [if_pos h7] at h
      simp only [Option.some.injEq, lexID] at h
      have hs := takeWhile_split (p := isAlphanumeric) (q := LetterDigit) (fun _ => isAlphanumeric_iff) cs
      have hu : Rd.unget ⟨c :: (g.reverse ++ b), cs⟩ = ⟨g.reverse ++ b, c :: cs⟩ := rfl
      have hlc : isAlphanumeric c = true := isAlphanumeric_iff.mpr (.inl (isLetter_iff.mp h7))
      rw [hu, Rd.takeWhile_spec] at h
      simp only [List.takeWhile_cons, List.dropWhile_cons, hlc, if_true] at h
      cases h
      refine ⟨g, c :: cs.takeWhile isAlphanumeric, hg, ?_, by simp, .inl (.name c _ _ (isLetter_iff.mp h7) hs.1 hs.2)⟩
      simp
    rw [if_neg h7] at h
    cases h; simp [Lexeme.fail] at he

end JP
