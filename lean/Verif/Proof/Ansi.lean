import Verif.Spec.Ansi
import Verif.Proof.CleanBytes
import Verif.Proof.Writer
/-
Lemmas about the decoder of escape sequences.
-/

namespace Bab.Ansi
open Bab Bab.Spec.Ansi

variable {cluster : Bytes → Nat}

theorem within_iff {lo hi : Nat} {b : UInt8} : within lo hi b = true ↔ lo ≤ b.toNat ∧ b.toNat ≤ hi := by
  simp [within]

theorem within_no {lo hi : Nat} {b : UInt8} (h : ¬ (lo ≤ b.toNat ∧ b.toNat ≤ hi)) : within lo hi b = false := by
  rw [← Bool.not_eq_true, within_iff]; exact h

/-- states inside a control sequence -/
def Inside (st : State) : Prop := st = .pre ∨ st = .params ∨ st = .inter

/-- intermediate bytes and the final byte -/
theorem go_inter (b : Bytes) (fin : UInt8) (hf : 0x40 ≤ fin.toNat ∧ fin.toNat ≤ 0x7E) (rest : Bytes) :
    ∀ (inter : Bytes) (st : State) (i : Nat), Inside st → AllIn 0x20 0x2F inter →
    go cluster b st i 0 (inter ++ fin :: rest) =
      if hasDcs b then go cluster b .str (i + inter.length + 1) fin.toNat rest else ⟨i + inter.length + 1, decide (fin = 0x6D), 0⟩
  | [], st, i, hst, _ => by
    have h1 : within 0x3C 0x3F fin = false := within_no (by omega)
    have h2 : within 0x30 0x3B fin = false := within_no (by omega)
    have h3 : within 0x20 0x2F fin = false := within_no (by omega)
    have h4 : within 0x40 0x7E fin = true := within_iff.mpr hf
    rcases hst with rfl | rfl | rfl <;> simp [go, h1, h2, h3, h4]
  | x :: inter, st, i, hst, h => by
    have hx := h x List.mem_cons_self
    have h1 : within 0x3C 0x3F x = false := within_no (by omega)
    have h2 : within 0x30 0x3B x = false := within_no (by omega)
    have h3 : within 0x20 0x2F x = true := within_iff.mpr hx
    have ih := go_inter b fin hf rest inter .inter (i + 1) (Or.inr (Or.inr rfl)) (fun y hy => h y (List.mem_cons_of_mem _ hy))
    have e : i + 1 + inter.length + 1 = i + (x :: inter).length + 1 := by simp; omega
    rw [e] at ih
    rw [← ih]
    rcases hst with rfl | rfl | rfl <;> simp [go, h1, h2, h3]

/-- parameters -/
theorem go_par (b : Bytes) (fin : UInt8) (hf : 0x40 ≤ fin.toNat ∧ fin.toNat ≤ 0x7E) (inter rest : Bytes) (hi : AllIn 0x20 0x2F inter) :
    ∀ (par : Bytes) (st : State) (i : Nat), st = .pre ∨ st = .params → AllIn 0x30 0x3B par →
    go cluster b st i 0 (par ++ (inter ++ fin :: rest)) =
      if hasDcs b then go cluster b .str (i + par.length + inter.length + 1) fin.toNat rest
      else ⟨i + par.length + inter.length + 1, decide (fin = 0x6D), 0⟩
  | [], st, i, hst, _ => by
    have := go_inter (cluster := cluster) b fin hf rest inter st i (by rcases hst with rfl | rfl <;> simp [Inside]) hi
    simpa using this
  | x :: par, st, i, hst, h => by
    have hx := h x List.mem_cons_self
    have h1 : within 0x3C 0x3F x = false := within_no (by omega)
    have h2 : within 0x30 0x3B x = true := within_iff.mpr hx
    have ih := go_par b fin hf inter rest hi par .params (i + 1) (Or.inr rfl) (fun y hy => h y (List.mem_cons_of_mem _ hy))
    have e : i + 1 + par.length + inter.length + 1 = i + (x :: par).length + inter.length + 1 := by simp; omega
    rw [e] at ih
    rw [← ih]
    rcases hst with rfl | rfl <;> simp [go, h1, h2]

/-- private parameters -/
theorem go_priv (b : Bytes) {par inter : Bytes} {fin : UInt8} (rest : Bytes) :
    ∀ (priv : Bytes) (i : Nat), Control priv par inter fin →
    go cluster b .pre i 0 (priv ++ (par ++ (inter ++ fin :: rest))) =
      if hasDcs b then go cluster b .str (i + priv.length + par.length + inter.length + 1) fin.toNat rest
      else ⟨i + priv.length + par.length + inter.length + 1, decide (fin = 0x6D), 0⟩
  | [], i, h => by
    have := go_par (cluster := cluster) b fin h.2.2.2 inter rest h.2.2.1 par .pre i (Or.inl rfl) h.2.1
    simpa using this
  | x :: priv, i, h => by
    have hx := h.1 x List.mem_cons_self
    have h1 : within 0x3C 0x3F x = true := within_iff.mpr hx
    have ih := go_priv b rest priv (i + 1) ⟨fun y hy => h.1 y (List.mem_cons_of_mem _ hy), h.2⟩
    have e : i + 1 + priv.length + par.length + inter.length + 1 = i + (x :: priv).length + par.length + inter.length + 1 := by simp; omega
    rw [e] at ih
    rw [← ih]
    simp [go, h1]

/-- data of a command string -/
theorem go_data (b : Bytes) (cmd : Nat) (rest : Bytes) : ∀ (data : Bytes) (i : Nat), Data data → (hasOsc b = true → (0x07 : UInt8) ∉ data) →
    go cluster b .str i cmd (data ++ rest) = go cluster b .str (i + data.length) cmd rest
  | [], i, _, _ => by simp
  | x :: data, i, h, h7 => by
    obtain ⟨a1, a2, a3, a4⟩ := h x List.mem_cons_self
    have ih := go_data b cmd rest data (i + 1) (fun y hy => h y (List.mem_cons_of_mem _ hy)) (fun e hm => h7 e (List.mem_cons_of_mem _ hm))
    have e : i + 1 + data.length = i + (x :: data).length := by simp; omega
    rw [e] at ih
    rw [← ih, List.cons_append, go]
    have : (decide (x = 7) && hasOsc b) = false := by
      by_cases hb : hasOsc b = true
      · have : x ≠ 7 := fun e => h7 hb (e ▸ List.mem_cons_self)
        simp [this]
      · simp [hb]
    simp [this, a1, a2, a3, a4]

theorem go_escInter (b : Bytes) (fin : UInt8) (hf : 0x30 ≤ fin.toNat ∧ fin.toNat ≤ 0x7E)
    (hn : fin ∉ ([0x5B, 0x50, 0x5D, 0x58, 0x5E, 0x5F] : Bytes)) (rest : Bytes) :
    ∀ (inter : Bytes) (i cmd : Nat), AllIn 0x20 0x2F inter →
    go cluster b .esc i cmd (inter ++ fin :: rest) = ⟨i + inter.length + 1, decide (fin = 0x6D), 0⟩
  | [], i, cmd, _ => by
    simp only [List.mem_cons, List.not_mem_nil, or_false, not_or] at hn
    obtain ⟨n1, n2, n3, n4, n5, n6⟩ := hn
    have h3 : within 0x20 0x2F fin = false := within_no (by omega)
    have h4 : within 0x30 0x7E fin = true := within_iff.mpr hf
    simp [go, n1, n2, n3, n4, n5, n6, h3, h4]
  | x :: inter, i, cmd, h => by
    have hx := h x List.mem_cons_self
    have h3 : within 0x20 0x2F x = true := within_iff.mpr hx
    have ne : ∀ y : UInt8, 0x30 ≤ y.toNat → x ≠ y := by rintro y hy rfl; omega
    have ih := go_escInter b fin hf hn rest inter (i + 1) cmd (fun y hy => h y (List.mem_cons_of_mem _ hy))
    have e : i + 1 + inter.length + 1 = i + (x :: inter).length + 1 := by simp; omega
    rw [e] at ih
    rw [← ih, List.cons_append, go]
    simp [h3, ne 0x5B (by decide), ne 0x50 (by decide), ne 0x5D (by decide), ne 0x58 (by decide), ne 0x5E (by decide), ne 0x5F (by decide)]

/-- a complete sequence is read whole, whatever follows it -/
theorem decode_piece (p : Piece) (hok : p.OK) (hn : ∀ s, p ≠ .text s) (rest : Bytes) :
    (decode cluster 0 (p.bytes ++ rest)).len = p.bytes.length ∧ (decode cluster 0 (p.bytes ++ rest)).state = 0 ∧
      ∀ priv par inter fin, p = .csi priv par inter fin → (decode cluster 0 (p.bytes ++ rest)).isM = decide (fin = 0x6D) := by
  cases p with
  | text s => exact absurd rfl (hn s)
  | csi priv par inter fin =>
    have e : (Piece.csi priv par inter fin).bytes ++ rest = 0x1B :: 0x5B :: (priv ++ (par ++ (inter ++ fin :: rest))) := by simp [Piece.bytes]
    rw [e, decode]
    have : go cluster (0x1B :: 0x5B :: (priv ++ (par ++ (inter ++ fin :: rest)))) (State.ofNum 0) 0 0
        (0x1B :: 0x5B :: (priv ++ (par ++ (inter ++ fin :: rest)))) = ⟨2 + priv.length + par.length + inter.length + 1, decide (fin = 0x6D), 0⟩ := by
      rw [State.ofNum, go]
      simp only [↓reduceIte, go]
      simp only [decide_true, Bool.true_or, ↓reduceIte]
      rw [go_priv _ _ _ _ hok]
      simp [hasDcs]
    rw [this]
    refine ⟨?_, rfl, ?_⟩
    · simp [Piece.bytes]; omega
    · intro _ _ _ _ h; cases h; rfl
  | esc inter fin =>
    obtain ⟨h1, h2, h3, h4⟩ := hok
    have e : (Piece.esc inter fin).bytes ++ rest = 0x1B :: (inter ++ fin :: rest) := by simp [Piece.bytes]
    rw [e, decode, State.ofNum, go]
    simp only [↓reduceIte]
    rw [go_escInter _ _ ⟨h2, h3⟩ h4 _ _ _ _ h1]
    refine ⟨?_, rfl, ?_⟩
    · simp [Piece.bytes]; omega
    · intro _ _ _ _ h; cases h
  | osc data bell =>
    obtain ⟨h1, h2⟩ := hok
    have e : (Piece.osc data bell).bytes ++ rest = 0x1B :: 0x5D :: (data ++ ((if bell then [0x07] else [0x1B, 0x5C]) ++ rest)) := by
      simp [Piece.bytes]
    have key : decode cluster 0 (0x1B :: 0x5D :: (data ++ ((if bell then [0x07] else [0x1B, 0x5C]) ++ rest))) =
        ⟨2 + data.length + (if bell then 1 else 2), false, 0⟩ := by
      rw [decode, State.ofNum, go]
      simp only [↓reduceIte, go]
      rw [if_neg (by decide), if_pos (by decide), go_data _ _ _ _ _ h1 (fun _ => h2)]
      cases bell with
      | true => simp [go, hasOsc]
      | false => simp [go, hasOsc, hasSt]
    rw [e, key]
    refine ⟨?_, rfl, ?_⟩
    · cases bell <;> simp [Piece.bytes] <;> omega
    · intro _ _ _ _ h; cases h
  | str kind data =>
    obtain ⟨h1, h2⟩ := hok
    have e : (Piece.str kind data).bytes ++ rest = 0x1B :: kind :: (data ++ (0x1B :: 0x5C :: rest)) := by simp [Piece.bytes]
    have hk : kind ≠ 0x5B ∧ kind ≠ 0x50 ∧ (kind = 0x5D ∨ kind = 0x58 ∨ kind = 0x5E ∨ kind = 0x5F) ∧ kind ≠ 0x5D := by
      simp only [List.mem_cons, List.not_mem_nil, or_false] at h1
      rcases h1 with rfl | rfl | rfl <;> decide
    have key : decode cluster 0 (0x1B :: kind :: (data ++ (0x1B :: 0x5C :: rest))) = ⟨2 + data.length + 2, false, 0⟩ := by
      rw [decode, State.ofNum, go]
      simp only [↓reduceIte, go]
      rw [if_neg (by simp [hk.1, hk.2.1]), if_pos (by simpa [or_assoc] using hk.2.2.1),
        go_data _ _ _ _ _ h2 (fun h => absurd h (by simp [hasOsc, hk.2.2.2]))]
      simp [go, hasSt]
    rw [e, key]
    refine ⟨?_, rfl, ?_⟩
    · simp [Piece.bytes]; omega
    · intro _ _ _ _ h; cases h
  | dcs priv par inter fin data =>
    obtain ⟨h1, h2⟩ := hok
    have e : (Piece.dcs priv par inter fin data).bytes ++ rest =
        0x1B :: 0x50 :: (priv ++ (par ++ (inter ++ fin :: (data ++ (0x1B :: 0x5C :: rest))))) := by simp [Piece.bytes]
    have key : (decode cluster 0 (0x1B :: 0x50 :: (priv ++ (par ++ (inter ++ fin :: (data ++ (0x1B :: 0x5C :: rest))))))).len =
        2 + priv.length + par.length + inter.length + 1 + data.length + 2 ∧
        (decode cluster 0 (0x1B :: 0x50 :: (priv ++ (par ++ (inter ++ fin :: (data ++ (0x1B :: 0x5C :: rest))))))).state = 0 := by
      rw [decode, State.ofNum, go]
      simp only [↓reduceIte, go]
      rw [if_pos (by decide), go_priv _ _ _ _ h1, if_pos (by simp [hasDcs]), go_data _ _ _ _ _ h2 (fun h => absurd h (by simp [hasOsc]))]
      simp [go, hasSt]
    rw [e]
    refine ⟨key.1.trans ?_, key.2, ?_⟩
    · simp [Piece.bytes]; omega
    · intro _ _ _ _ h; cases h

/-! ## The loop -/

theorem loop_step (dec : Raw.Decoder) {fuel : Nat} {input : Bytes} (hne : input ≠ []) (hl : (dec 0 input).len ≠ 0) :
    Raw.sanitizeLoop dec (fuel + 1) 0 input =
      (if Raw.hasCsiPrefix (input.take (dec 0 input).len) then
        (if (dec 0 input).isM then input.take (dec 0 input).len else [])
      else if !Raw.hasOtherPrefix (input.take (dec 0 input).len) then input.take (dec 0 input).len else []) ++
      Raw.sanitizeLoop dec fuel (dec 0 input).state (input.drop (dec 0 input).len) := by
  rw [Raw.sanitizeLoop, if_neg hne]
  dsimp only
  rw [if_neg hl]

/-- text is taken over -/
theorem loop_text (hc : Clusters cluster) {rest : Bytes} (hr : rest = [] ∨ ∃ r, rest = 0x1B :: r) :
    ∀ (n : Nat) (s : Str) (fuel : Nat), s.length ≤ n → '\x1b' ∉ s → (Raw.utf8 s ++ rest).length < fuel →
    ∃ fuel', rest.length < fuel' ∧
      Raw.sanitizeLoop (decode cluster) fuel 0 (Raw.utf8 s ++ rest) = Raw.utf8 s ++ Raw.sanitizeLoop (decode cluster) fuel' 0 rest
  | _, [], fuel, _, _, hf => ⟨fuel, by simpa [Raw.utf8] using hf, by simp [Raw.utf8]⟩
  | 0, c :: s, _, h, _, _ => by simp at h
  | n + 1, c :: s, fuel, hn, he, hf => by
    obtain ⟨f, rfl⟩ : ∃ f, fuel = f + 1 := ⟨fuel - 1, by omega⟩
    have hce : c ≠ '\x1b' := fun e => he (e ▸ List.mem_cons_self)
    -- the first piece is some characters
    have key : ∃ t u, s = t ++ u ∧ decode cluster 0 (Raw.utf8 (c :: s) ++ rest) = ⟨(Raw.utf8 (c :: t)).length, false, 0⟩ ∧
        ∃ b r, Raw.utf8 (c :: t) = b :: r ∧ b ≠ 0x1B ∧ b ≠ 0x9B ∧ b ≠ 0x90 ∧ b ≠ 0x9D ∧ b ≠ 0x9F := by
      rcases Raw.encode_head c with ⟨b, hb, hbn⟩ | ⟨b, r, hb, hbn⟩
      · have hb8 : b.toNat < 0x80 := by
          rcases Nat.lt_or_ge 0x7F c.toNat with h | h
          · have := congrArg List.length hb
            rw [Raw.encodeRune, if_neg (by omega)] at this
            split at this
            · simp at this
            · split at this <;> simp at this
          · omega
        have hb1b : b ≠ 0x1B := by
          rintro rfl
          exact hce (Char.toNat_inj.mp (hbn.symm.trans rfl))
        have ne : ∀ y : UInt8, 0x80 ≤ y.toNat → b ≠ y := by rintro y hy rfl; omega
        refine ⟨[], s, rfl, ?_, b, [], ?_, hb1b, ne _ (by decide), ne _ (by decide), ne _ (by decide), ne _ (by decide)⟩
        · rw [Raw.utf8_cons, hb, List.cons_append, List.cons_append, decode, State.ofNum, go]
          rw [if_neg hb1b, if_neg (by simp [ne 0x9B (by decide), ne 0x90 (by decide)]),
            if_neg (by simp [ne 0x9D (by decide), ne 0x9F (by decide), ne 0x98 (by decide), ne 0x9E (by decide)]), if_pos (by omega), Raw.utf8_cons, hb]
          simp [Raw.utf8]
        · rw [Raw.utf8_cons, hb]; simp [Raw.utf8]
      · have h80 : 0x80 ≤ c.toNat := by
          rcases Nat.lt_or_ge c.toNat 0x80 with h | h
          · rw [Raw.encodeRune, if_pos (by omega)] at hb
            cases hb
            rw [Raw.toNat_ofNat _ (by omega)] at hbn; omega
          · exact h
        obtain ⟨t, u, e, hcl⟩ := hc.whole c s rest h80 hr
        have ne : ∀ y : UInt8, y.toNat < 0xC2 → b ≠ y := by rintro y hy rfl; omega
        refine ⟨t, u, e, ?_, b, r ++ Raw.utf8 t, by rw [Raw.utf8_cons, hb]; rfl, ne _ (by decide), ne _ (by decide), ne _ (by decide), ne _ (by decide), ne _ (by decide)⟩
        have hx : Raw.utf8 (c :: s) ++ rest = b :: (r ++ Raw.utf8 s ++ rest) := by rw [Raw.utf8_cons, hb]; simp
        rw [decode, ← hcl, hx, State.ofNum, go]
        rw [if_neg (ne _ (by decide)), if_neg (by simp [ne 0x9B (by decide), ne 0x90 (by decide)]),
            if_neg (by simp [ne 0x9D (by decide), ne 0x9F (by decide), ne 0x98 (by decide), ne 0x9E (by decide)]), if_neg (by omega)]
    obtain ⟨t, u, rfl, hd, b, r, hb, n1, n2, n3, n4, n5⟩ := key
    have hsplit : Raw.utf8 (c :: (t ++ u)) ++ rest = Raw.utf8 (c :: t) ++ (Raw.utf8 u ++ rest) := by
      rw [show c :: (t ++ u) = (c :: t) ++ u from rfl, Raw.utf8_append, List.append_assoc]
    have hlen : (Raw.utf8 (c :: t)).length ≠ 0 := by rw [hb]; simp
    rw [loop_step _ (by rw [hsplit, hb]; simp) (by rw [hd]; exact hlen), hd, hsplit]
    dsimp only
    rw [List.take_left, List.drop_left]
    have hcs : Raw.hasCsiPrefix (Raw.utf8 (c :: t)) = false := by
      rw [hb]; unfold Raw.hasCsiPrefix; split
      · next e => cases e; exact absurd rfl n2
      · next e => cases e; exact absurd rfl n1
      · rfl
    have hos : Raw.hasOtherPrefix (Raw.utf8 (c :: t)) = false := by
      rw [hb]; unfold Raw.hasOtherPrefix; split
      · next e => cases e; exact absurd rfl n1
      · next e => cases e; simp [n3, n4, n5]
      · rfl
    rw [hcs, hos]
    have hf2 : (Raw.utf8 u ++ rest).length < f := by
      have := congrArg List.length hsplit
      simp only [List.length_append] at this hf hlen ⊢
      omega
    obtain ⟨f', h1, h2⟩ := loop_text hc hr n u f (by simp at hn; omega) (fun hm => he (by simp [hm])) hf2
    refine ⟨f', h1, ?_⟩
    rw [h2]
    simp only [Bool.false_eq_true, ↓reduceIte, Bool.not_false]
    rw [show c :: (t ++ u) = (c :: t) ++ u from rfl, Raw.utf8_append, List.append_assoc]

/-- what is left of a piece: a control sequence if it is ended by `m` -/
def leftOf : Piece → Bytes
  | .text s => Raw.utf8 (s.filter Visible)
  | .csi priv par inter fin => if fin = 0x6D then 0x1B :: 0x5B :: (priv ++ (par ++ (inter ++ [fin]))) else []
  | _ => []

/-- what is left of a line -/
def lefts (ps : List Piece) : Bytes := ps.flatMap leftOf

/-- what the loop leaves of a line: control characters in text are not yet removed -/
def rough (ps : List Piece) : Bytes := ps.flatMap fun
  | .text s => Raw.utf8 s
  | p => (leftOf p)

theorem loop_pieces (hc : Clusters cluster) {tail : Bytes} (ht1 : tail = [] ∨ ∃ r, tail = 0x1B :: r)
    (ht2 : ∀ fuel, tail.length < fuel → Raw.sanitizeLoop (decode cluster) fuel 0 tail = []) : ∀ (ps : List Piece) (s : Str) (fuel : Nat), (∀ p ∈ ps, p.OK) → '\x1b' ∉ s →
    (Raw.utf8 s ++ (bytes ps ++ tail)).length < fuel →
    Raw.sanitizeLoop (decode cluster) fuel 0 (Raw.utf8 s ++ (bytes ps ++ tail)) = Raw.utf8 s ++ rough ps
  | [], s, fuel, _, he, hf => by
    obtain ⟨f', h1, h2⟩ := loop_text hc ht1 _ s fuel (Nat.le_refl _) he (by simpa [bytes] using hf)
    simp only [bytes, rough, List.flatMap_nil, List.nil_append]
    rw [h2, ht2 _ h1]
  | p :: ps, s, fuel, hok, he, hf => by
    have hps := fun q hq => hok q (List.mem_cons_of_mem _ hq)
    have hp := hok p List.mem_cons_self
    have hb : bytes (p :: ps) ++ tail = p.bytes ++ (bytes ps ++ tail) := by simp [bytes]
    by_cases ht : ∃ t, p = .text t
    · obtain ⟨t, rfl⟩ := ht
      have e1 : Raw.utf8 s ++ (bytes (.text t :: ps) ++ tail) = Raw.utf8 (s ++ t) ++ (bytes ps ++ tail) := by
        rw [hb, Raw.utf8_append, List.append_assoc]; rfl
      have e2 : Raw.utf8 s ++ rough (.text t :: ps) = Raw.utf8 (s ++ t) ++ rough ps := by
        simp [rough, Raw.utf8_append]
      rw [e1, e2]
      refine loop_pieces hc ht1 ht2 ps (s ++ t) fuel hps ?_ (by rw [← e1]; exact hf)
      intro hm
      rcases List.mem_append.mp hm with hm | hm
      · exact he hm
      · exact hp hm
    · have hn : ∀ t, p ≠ .text t := fun t e => ht ⟨t, e⟩
      have hesc : ∃ r, p.bytes = 0x1B :: r := by
        cases p with
        | text t => exact absurd rfl (hn t)
        | _ => exact ⟨_, rfl⟩
      obtain ⟨r, hr⟩ := hesc
      obtain ⟨f', h1, h2⟩ := loop_text hc (rest := bytes (p :: ps) ++ tail) (Or.inr ⟨r ++ (bytes ps ++ tail), by rw [hb, hr]; rfl⟩) _ s fuel (Nat.le_refl _) he hf
      rw [h2]
      congr 1
      obtain ⟨k, rfl⟩ : ∃ k, f' = k + 1 := ⟨f' - 1, by omega⟩
      obtain ⟨d1, d2, d3⟩ := decode_piece (cluster := cluster) p hp hn (bytes ps ++ tail)
      rw [hb] at h1 ⊢
      rw [loop_step _ (by rw [hr]; simp) (by rw [d1, hr]; simp), d1, d2, List.take_left, List.drop_left]
      have ih := loop_pieces hc ht1 ht2 ps [] k hps (by simp) (by
        rw [hr] at h1; simp [Raw.utf8] at h1 ⊢; omega)
      rw [show Raw.utf8 [] = [] from rfl, List.nil_append, List.nil_append] at ih
      rw [ih]
      have hrough : rough (p :: ps) = leftOf p ++ rough ps := by
        cases p with
        | text t => exact absurd rfl (hn t)
        | _ => simp [rough]
      rw [hrough]
      congr 1
      cases p with
      | text t => exact absurd rfl (hn t)
      | csi priv par inter fin =>
        rw [d3 _ _ _ _ rfl]
        simp [Piece.bytes, leftOf, Raw.hasCsiPrefix]
      | esc inter fin =>
        obtain ⟨a1, a2, a3, a4⟩ := hp
        have : Raw.hasCsiPrefix (Piece.esc inter fin).bytes = false := by
          cases inter with
          | nil =>
            simp only [Piece.bytes, List.nil_append]
            unfold Raw.hasCsiPrefix
            split
            · next e => cases e
            · next e => cases e; simp at a4
            · rfl
          | cons x inter =>
            have hx := a1 x List.mem_cons_self
            simp only [Piece.bytes, List.cons_append]
            unfold Raw.hasCsiPrefix
            split
            · next e => cases e
            · next e => cases e; revert hx; decide
            · rfl
        rw [this]
        simp [Piece.bytes, leftOf, Raw.hasOtherPrefix]
      | osc data bell => simp [Piece.bytes, leftOf, Raw.hasOtherPrefix, Raw.hasCsiPrefix]
      | str kind data =>
        have : Raw.hasCsiPrefix (Piece.str kind data).bytes = false := by
          have hk := hp.1
          simp only [List.mem_cons, List.not_mem_nil, or_false] at hk
          rcases hk with rfl | rfl | rfl <;> simp [Piece.bytes, Raw.hasCsiPrefix]
        rw [this]
        simp [Piece.bytes, leftOf, Raw.hasOtherPrefix]
      | dcs priv par inter fin data => simp [Piece.bytes, leftOf, Raw.hasOtherPrefix, Raw.hasCsiPrefix]

/-! ### Sequences that are not finished -/

theorem go_inter_end (b : Bytes) : ∀ (inter : Bytes) (st : State) (i : Nat), Inside st → AllIn 0x20 0x2F inter →
    (go cluster b st i 0 inter).len = i + inter.length ∧ (go cluster b st i 0 inter).isM = false
  | [], st, i, _, _ => by simp [go]
  | x :: inter, st, i, hst, h => by
    have hx := h x List.mem_cons_self
    have h1 : within 0x3C 0x3F x = false := within_no (by omega)
    have h2 : within 0x30 0x3B x = false := within_no (by omega)
    have h3 : within 0x20 0x2F x = true := within_iff.mpr hx
    have ih := go_inter_end b inter .inter (i + 1) (Or.inr (Or.inr rfl)) (fun y hy => h y (List.mem_cons_of_mem _ hy))
    have e : i + 1 + inter.length = i + (x :: inter).length := by simp; omega
    rw [e] at ih
    rw [← ih.1, ← ih.2]
    rcases hst with rfl | rfl | rfl <;> simp [go, h1, h2, h3]

theorem go_par_end (b : Bytes) (inter : Bytes) (hi : AllIn 0x20 0x2F inter) : ∀ (par : Bytes) (st : State) (i : Nat),
    st = .pre ∨ st = .params → AllIn 0x30 0x3B par →
    (go cluster b st i 0 (par ++ inter)).len = i + (par ++ inter).length ∧ (go cluster b st i 0 (par ++ inter)).isM = false
  | [], st, i, hst, _ => go_inter_end b inter st i (by rcases hst with rfl | rfl <;> simp [Inside]) hi
  | x :: par, st, i, hst, h => by
    have hx := h x List.mem_cons_self
    have h1 : within 0x3C 0x3F x = false := within_no (by omega)
    have h2 : within 0x30 0x3B x = true := within_iff.mpr hx
    have ih := go_par_end b inter hi par .params (i + 1) (Or.inr rfl) (fun y hy => h y (List.mem_cons_of_mem _ hy))
    have e : i + 1 + (par ++ inter).length = i + (x :: par ++ inter).length := by simp; omega
    rw [e] at ih
    rw [← ih.1, ← ih.2]
    rcases hst with rfl | rfl <;> simp [go, h1, h2]

theorem go_priv_end (b : Bytes) {par inter : Bytes} (hp : AllIn 0x30 0x3B par) (hi : AllIn 0x20 0x2F inter) : ∀ (priv : Bytes) (i : Nat),
    AllIn 0x3C 0x3F priv →
    (go cluster b .pre i 0 (priv ++ (par ++ inter))).len = i + (priv ++ (par ++ inter)).length ∧ (go cluster b .pre i 0 (priv ++ (par ++ inter))).isM = false
  | [], i, _ => go_par_end b inter hi par .pre i (Or.inl rfl) hp
  | x :: priv, i, h => by
    have h1 : within 0x3C 0x3F x = true := within_iff.mpr (h x List.mem_cons_self)
    have ih := go_priv_end b hp hi priv (i + 1) (fun y hy => h y (List.mem_cons_of_mem _ hy))
    have e : i + 1 + (priv ++ (par ++ inter)).length = i + (x :: priv ++ (par ++ inter)).length := by simp; omega
    rw [e] at ih
    rw [← ih.1, ← ih.2]
    simp [go, h1]

theorem go_esc_end (b : Bytes) : ∀ (inter : Bytes) (i : Nat), AllIn 0x20 0x2F inter → (go cluster b .esc i 0 inter).len = i + inter.length
  | [], i, _ => by simp [go]
  | x :: inter, i, h => by
    have hx := h x List.mem_cons_self
    have h3 : within 0x20 0x2F x = true := within_iff.mpr hx
    have ne : ∀ y : UInt8, 0x30 ≤ y.toNat → x ≠ y := by rintro y hy rfl; omega
    have ih := go_esc_end b inter (i + 1) (fun y hy => h y (List.mem_cons_of_mem _ hy))
    have e : i + 1 + inter.length = i + (x :: inter).length := by simp; omega
    rw [e] at ih
    rw [← ih, go]
    simp [h3, ne 0x5B (by decide), ne 0x50 (by decide), ne 0x5D (by decide), ne 0x58 (by decide), ne 0x5E (by decide), ne 0x5F (by decide)]

/-- such a sequence is read to the end of the line, and is not one that sets colours -/
theorem decode_unfinished {tail : Bytes} (h : Unfinished tail) : (∃ r, tail = 0x1B :: r) ∧ (decode cluster 0 tail).len = tail.length ∧
    (Raw.hasCsiPrefix tail = true → (decode cluster 0 tail).isM = false) := by
  cases h with
  | @csi priv par inter h1 h2 h3 =>
    obtain ⟨a1, a2⟩ := go_priv_end (cluster := cluster) (0x1B :: 0x5B :: (priv ++ (par ++ inter))) h2 h3 priv 2 h1
    have e : decode cluster 0 (0x1B :: 0x5B :: (priv ++ (par ++ inter))) = go cluster (0x1B :: 0x5B :: (priv ++ (par ++ inter))) .pre 2 0 (priv ++ (par ++ inter)) := by
      rw [decode, State.ofNum, go, if_pos rfl, go, if_pos (by decide)]
    rw [e]
    exact ⟨⟨_, rfl⟩, by rw [a1]; simp; omega, fun _ => a2⟩
  | @esc inter h1 =>
    refine ⟨⟨_, rfl⟩, ?_, fun hp => ?_⟩
    · rw [decode, State.ofNum, go, if_pos rfl, go_esc_end _ _ _ h1]; simp; omega
    · cases inter with
      | nil => simp [Raw.hasCsiPrefix] at hp
      | cons x inter =>
        have hx := h1 x List.mem_cons_self
        unfold Raw.hasCsiPrefix at hp
        split at hp
        · next e => cases e
        · next e => cases e; exact absurd hx (by decide)
        · cases hp
  | @osc data h1 h2 =>
    refine ⟨⟨_, rfl⟩, ?_, fun hp => by simp [Raw.hasCsiPrefix] at hp⟩
    have := go_data (cluster := cluster) (0x1B :: 0x5D :: data) 0xFF [] data 2 h1 (fun _ => h2)
    rw [List.append_nil] at this
    rw [decode, State.ofNum, go, if_pos rfl, go, if_neg (by decide), if_pos (by decide), this]
    simp [go]; omega
  | @str kind data h1 h2 =>
    have hk : kind ≠ 0x5B ∧ kind ≠ 0x50 ∧ (kind = 0x5D ∨ kind = 0x58 ∨ kind = 0x5E ∨ kind = 0x5F) ∧ kind ≠ 0x5D := by
      simp only [List.mem_cons, List.not_mem_nil, or_false] at h1
      rcases h1 with rfl | rfl | rfl <;> decide
    refine ⟨⟨_, rfl⟩, ?_, fun hp => ?_⟩
    · have := go_data (cluster := cluster) (0x1B :: kind :: data) 0xFF [] data 2 h2 (fun h => absurd h (by simp [hasOsc, hk.2.2.2]))
      rw [List.append_nil] at this
      rw [decode, State.ofNum, go, if_pos rfl, go, if_neg (by simp [hk.1, hk.2.1]), if_pos (by simpa [or_assoc] using hk.2.2.1), this]
      simp [go]; omega
    · unfold Raw.hasCsiPrefix at hp
      split at hp
      · next e => cases e
      · next e => cases e; exact absurd rfl hk.1
      · cases hp
  | @dcs priv par inter data fin h1 h2 =>
    refine ⟨⟨_, rfl⟩, ?_, fun hp => by simp [Raw.hasCsiPrefix] at hp⟩
    have := go_data (cluster := cluster) (0x1B :: 0x50 :: (priv ++ (par ++ (inter ++ fin :: data)))) fin.toNat [] data
      (2 + priv.length + par.length + inter.length + 1) h2 (fun h => absurd h (by simp [hasOsc]))
    rw [List.append_nil] at this
    rw [decode, State.ofNum, go, if_pos rfl, go, if_pos (by decide), go_priv _ _ _ _ h1, if_pos (by simp [hasDcs]), this]
    simp [go]; omega

theorem loop_unfinished {tail : Bytes} (h : tail = [] ∨ Unfinished tail) :
    (tail = [] ∨ ∃ r, tail = 0x1B :: r) ∧ ∀ fuel, tail.length < fuel → Raw.sanitizeLoop (decode cluster) fuel 0 tail = [] := by
  rcases h with rfl | h
  · refine ⟨Or.inl rfl, fun fuel hf => ?_⟩
    obtain ⟨k, rfl⟩ : ∃ k, fuel = k + 1 := ⟨fuel - 1, by simp at hf; omega⟩
    rw [Raw.sanitizeLoop, if_pos rfl]
  · obtain ⟨⟨r, hr⟩, h2, h3⟩ := decode_unfinished (cluster := cluster) h
    refine ⟨Or.inr ⟨r, hr⟩, fun fuel hf => ?_⟩
    obtain ⟨k, rfl⟩ : ∃ k, fuel = k + 1 := ⟨fuel - 1, by omega⟩
    rw [loop_step _ (by rw [hr]; simp) (by rw [h2, hr]; simp), h2, List.take_length, List.drop_length]
    have : ∀ st, Raw.sanitizeLoop (decode cluster) k st [] = [] := fun st => by cases k <;> simp [Raw.sanitizeLoop]
    rw [this, List.append_nil]
    split
    · next hp => rw [h3 hp]; rfl
    · rw [hr]; rfl

/-! ## Removing control characters afterwards -/

/-- bytes below `0x80` as characters -/
def chars (bs : Bytes) : Str := bs.map fun b => Char.ofNat b.toNat

theorem char_of_byte {b : UInt8} (h : b.toNat < 0x80) : (Char.ofNat b.toNat).toNat = b.toNat := by
  have hv : b.toNat.isValidChar := Or.inl (by omega)
  rw [Char.ofNat, dif_pos hv]
  simp [Char.toNat, Char.ofNatAux]

theorem utf8_chars : ∀ {bs : Bytes}, (∀ b ∈ bs, b.toNat < 0x80) → Raw.utf8 (chars bs) = bs
  | [], _ => rfl
  | b :: bs, h => by
    have hb := h b List.mem_cons_self
    have ih := utf8_chars (bs := bs) (fun x hx => h x (List.mem_cons_of_mem _ hx))
    rw [chars, List.map_cons, Raw.utf8_cons, char_of_byte hb, Raw.encodeRune, if_pos (by omega)]
    rw [show List.map (fun b : UInt8 => Char.ofNat b.toNat) bs = chars bs from rfl, ih]
    simp

/-- the bytes of a sequence -/
theorem control_bytes {priv par inter : Bytes} {fin : UInt8} (h : Control priv par inter fin) :
    ∀ b ∈ priv ++ (par ++ (inter ++ [fin])), 0x20 ≤ b.toNat ∧ b.toNat < 0x80 := by
  intro b hb
  simp only [List.mem_append, List.mem_singleton] at hb
  obtain ⟨h1, h2, h3, h4⟩ := h
  rcases hb with hb | hb | hb | rfl
  · have := h1 b hb; omega
  · have := h2 b hb; omega
  · have := h3 b hb; omega
  · omega

/-- what the loop leaves, as characters -/
def roughStr (ps : List Piece) : Str := ps.flatMap fun
  | .text s => s
  | p => chars (leftOf p)

theorem csi_kept {priv par inter : Bytes} {fin : UInt8} (h : Control priv par inter fin) :
    ∀ b ∈ leftOf (Piece.csi priv par inter fin), b.toNat < 0x80 ∧ (0x20 ≤ b.toNat ∨ b = 0x1B) := by
  intro b hb
  rw [leftOf] at hb
  split at hb
  · simp only [List.mem_cons] at hb
    rcases hb with rfl | rfl | hb
    · decide
    · decide
    · have := control_bytes h b hb
      exact ⟨this.2, Or.inl this.1⟩
  · cases hb

theorem rough_utf8 : ∀ {ps : List Piece}, (∀ p ∈ ps, p.OK) → rough ps = Raw.utf8 (roughStr ps)
  | [], _ => rfl
  | p :: ps, h => by
    have ih := rough_utf8 (ps := ps) (fun q hq => h q (List.mem_cons_of_mem _ hq))
    have hp := h p List.mem_cons_self
    simp only [rough, roughStr, List.flatMap_cons, Raw.utf8_append] at ih ⊢
    rw [← ih]
    congr 1
    cases p with
    | text s => rfl
    | csi priv par inter fin => exact (utf8_chars fun b hb => (csi_kept hp b hb).1).symm
    | _ => rfl

theorem filter_utf8 : ∀ {ps : List Piece}, (∀ p ∈ ps, p.OK) → Raw.utf8 ((roughStr ps).filter fun c => !isUnsafeControl c) = lefts ps
  | [], _ => rfl
  | p :: ps, h => by
    have ih := filter_utf8 (ps := ps) (fun q hq => h q (List.mem_cons_of_mem _ hq))
    have hp := h p List.mem_cons_self
    simp only [roughStr, lefts, List.flatMap_cons, List.filter_append, Raw.utf8_append] at ih ⊢
    rw [ih]
    congr 1
    cases p with
    | text s =>
      dsimp only [leftOf]
      congr 1
      refine List.filter_congr fun c hc => ?_
      have hce : c ≠ '\x1b' := fun e => hp (e ▸ hc)
      rw [isUnsafeControl, Visible]
      by_cases h1 : c.toNat < 0x20
      · have : ¬ 0x20 ≤ c.toNat := by omega
        by_cases h2 : c = '\t' <;> simp [h1, h2, hce]
      · have : 0x20 ≤ c.toNat := by omega
        simp [h1, this]
    | csi priv par inter fin =>
      have hk := csi_kept hp
      dsimp only
      generalize leftOf (Piece.csi priv par inter fin) = bs at hk
      have e : (chars bs).filter (fun c => !isUnsafeControl c) = chars bs := by
        rw [List.filter_eq_self]
        intro c hc
        obtain ⟨b, hb, rfl⟩ := List.mem_map.mp hc
        rcases (hk b hb).2 with h2 | rfl
        · rw [isUnsafeControl, char_of_byte (hk b hb).1]
          have : ¬ b.toNat < 0x20 := by omega
          simp [this]
        · decide
      rw [e, utf8_chars fun b hb => (hk b hb).1]
    | _ => rfl

theorem strip_rough {ps : List Piece} (h : ∀ p ∈ ps, p.OK) : Raw.stripControlChars (rough ps) = lefts ps := by
  rw [rough_utf8 h, Raw.strip_utf8, stripControlChars_eq, filter_utf8 h]

theorem no_escape {ps : List Piece} (h : (0x1B : UInt8) ∉ bytes ps) : rough ps = bytes ps := by
  induction ps with
  | nil => rfl
  | cons p ps ih =>
    simp only [bytes, rough, List.flatMap_cons, List.mem_append, not_or] at ih h ⊢
    rw [ih h.2]
    congr 1
    cases p with
    | text s => rfl
    | _ => exact absurd (by simp [Piece.bytes]) h.1

/-! ## Every line -/

/-- outside of command strings the decoder is in its first state again, or the input is over -/
theorem go_state (b : Bytes) : ∀ (rest : Bytes) (st : State) (i cmd : Nat), i + rest.length = b.length →
    (go cluster b st i cmd rest).state = 0 ∨ (go cluster b st i cmd rest).len = b.length
  | [], st, i, cmd, h => by simp at h; simp [go, h]
  | c :: rest, st, i, cmd, h => by
    have ih := fun st cmd => go_state b rest st (i + 1) cmd (by simp at h; omega)
    cases st <;> simp only [go]
    all_goals
      repeat' split
      all_goals first | exact Or.inl rfl | exact ih _ _

/-- how far the decoder has read -/
theorem go_len (hc : Clusters cluster) (b : Bytes) : ∀ (rest : Bytes) (st : State) (i cmd : Nat), b ≠ [] → (st = .normal → rest ≠ []) → (i = 0 → st = .normal) →
    1 ≤ (go cluster b st i cmd rest).len ∧ (st ≠ .normal → i ≤ (go cluster b st i cmd rest).len)
  | [], st, i, cmd, _, h, h0 => by
    rw [go]
    refine ⟨?_, fun _ => Nat.le_refl _⟩
    dsimp only
    rcases Nat.eq_zero_or_pos i with e | e
    · exact absurd rfl (h (h0 e))
    · exact e
  | c :: rest, st, i, cmd, hb, h, h0 => by
    have ih := fun st (hs : st ≠ State.normal) cmd => go_len hc b rest st (i + 1) cmd hb (fun e => absurd e hs) (by omega)
    have hi : st ≠ .normal → 1 ≤ i := fun hs => by
      rcases Nat.eq_zero_or_pos i with e | e
      · exact absurd (h0 e) hs
      · exact e
    have hcl := hc.some b hb
    have i1 := ih .esc (by decide)
    have i2 := ih .pre (by decide)
    have i3 := ih .params (by decide)
    have i4 := ih .inter (by decide)
    have i5 := ih .str (by decide)
    cases st with
    | normal =>
      simp only [go]
      repeat' split
      · exact ⟨(i1 _).1, fun h => absurd rfl h⟩
      · exact ⟨(i2 _).1, fun h => absurd rfl h⟩
      · exact ⟨(i5 _).1, fun h => absurd rfl h⟩
      · exact ⟨Nat.le_refl 1, fun h => absurd rfl h⟩
      · exact ⟨hcl, fun h => absurd rfl h⟩
    | _ =>
      have h1 := hi (by decide)
      simp only [go]
      repeat' split
      all_goals first
        | exact ⟨(i1 _).1, fun _ => Nat.le_of_succ_le ((i1 _).2 (by decide))⟩
        | exact ⟨(i2 _).1, fun _ => Nat.le_of_succ_le ((i2 _).2 (by decide))⟩
        | exact ⟨(i3 _).1, fun _ => Nat.le_of_succ_le ((i3 _).2 (by decide))⟩
        | exact ⟨(i4 _).1, fun _ => Nat.le_of_succ_le ((i4 _).2 (by decide))⟩
        | exact ⟨(i5 _).1, fun _ => Nat.le_of_succ_le ((i5 _).2 (by decide))⟩
        | exact ⟨h1, fun _ => Nat.le_refl _⟩
        | exact ⟨Nat.le_add_left _ _, fun _ => Nat.le_add_right _ _⟩
        | exact ⟨Nat.le_trans (by decide : 1 ≤ 2) (Nat.le_add_left _ _), fun _ => Nat.le_add_right _ _⟩

/-- a control sequence that is taken for one that sets colours -/
theorem go_m (b : Bytes) (hd : hasDcs b = false) : ∀ (rest : Bytes) (st : State) (i : Nat), Inside st → (go cluster b st i 0 rest).isM = true →
    ∃ priv par inter more, Control priv par inter 0x6D ∧ (st ≠ .pre → priv = []) ∧ (st = .inter → par = []) ∧
      rest = priv ++ (par ++ (inter ++ 0x6D :: more)) ∧ (go cluster b st i 0 rest).len = i + (priv ++ (par ++ (inter ++ [0x6D]))).length
  | [], st, i, _, h => by simp [go] at h
  | c :: rest, st, i, hst, h => by
    have nil : ∀ {lo hi}, AllIn lo hi [] := fun b hb => by cases hb
    have one : ∀ {lo hi} {x : UInt8} {xs : Bytes}, lo ≤ x.toNat ∧ x.toNat ≤ hi → AllIn lo hi xs → AllIn lo hi (x :: xs) := by
      intro lo hi x xs hx hxs y hy
      rcases List.mem_cons.mp hy with rfl | hy
      · exact hx
      · exact hxs y hy
    have ih := fun st' (hs : Inside st') (hm : (go cluster b st' (i + 1) 0 rest).isM = true) => go_m b hd rest st' (i + 1) hs hm
    by_cases w1 : st = .pre ∧ within 0x3C 0x3F c = true
    · obtain ⟨rfl, w⟩ := w1
      have e : go cluster b .pre i 0 (c :: rest) = go cluster b .pre (i + 1) 0 rest := by simp [go, w]
      rw [e] at h ⊢
      obtain ⟨priv, par, inter, more, h1, -, -, h4, h5⟩ := ih .pre (Or.inl rfl) h
      refine ⟨c :: priv, par, inter, more, ⟨one (within_iff.mp w) h1.1, h1.2⟩, fun h => absurd rfl h, fun h => by simp at h, by rw [h4]; rfl, ?_⟩
      rw [h5]; simp; omega
    · by_cases w2 : st ≠ .inter ∧ within 0x30 0x3B c = true
      · obtain ⟨hne, w⟩ := w2
        have e : go cluster b st i 0 (c :: rest) = go cluster b .params (i + 1) 0 rest := by
          rcases hst with rfl | rfl | rfl
          · have : within 0x3C 0x3F c = false := by simpa using w1
            simp [go, w, this]
          · simp [go, w]
          · exact absurd rfl hne
        rw [e] at h ⊢
        obtain ⟨priv, par, inter, more, h1, h2, -, h4, h5⟩ := ih .params (Or.inr (Or.inl rfl)) h
        obtain rfl := h2 (by decide)
        refine ⟨[], c :: par, inter, more, ⟨nil, one (within_iff.mp w) h1.2.1, h1.2.2⟩, fun _ => rfl, fun h => absurd h hne, by rw [h4]; rfl, ?_⟩
        rw [h5]; simp; omega
      · have w1' : (decide (st = .pre) && within 0x3C 0x3F c) = false := by
          rw [← Bool.not_eq_true, Bool.and_eq_true]; simpa using w1
        have w2' : (!decide (st = .inter) && within 0x30 0x3B c) = false := by
          rw [← Bool.not_eq_true, Bool.and_eq_true]; simpa using w2
        by_cases w3 : within 0x20 0x2F c = true
        · have e : go cluster b st i 0 (c :: rest) = go cluster b .inter (i + 1) 0 rest := by
            rcases hst with rfl | rfl | rfl <;> simp [go, w3] <;> simp_all
          rw [e] at h ⊢
          obtain ⟨priv, par, inter, more, h1, h2, h3, h4, h5⟩ := ih .inter (Or.inr (Or.inr rfl)) h
          obtain rfl := h2 (by decide)
          obtain rfl := h3 rfl
          refine ⟨[], [], c :: inter, more, ⟨nil, nil, one (within_iff.mp w3) h1.2.2.1, h1.2.2.2⟩, fun _ => rfl, fun _ => rfl, by rw [h4]; rfl, ?_⟩
          rw [h5]; simp; omega
        · have e : go cluster b st i 0 (c :: rest) = if within 0x40 0x7E c then ⟨i + 1, decide (c = 0x6D), 0⟩ else ⟨i, false, 0⟩ := by
            rcases hst with rfl | rfl | rfl <;> simp [go, w3, hd] <;> simp_all
          rw [e] at h ⊢
          split at h
          · next w4 =>
            have hc : c = 0x6D := by simpa using h
            subst hc
            refine ⟨[], [], [], rest, ⟨nil, nil, nil, by decide⟩, fun _ => rfl, fun _ => rfl, rfl, by rw [if_pos w4]; rfl⟩
          · cases h

/-- what the decoder takes of a command string -/
theorem go_str (b : Bytes) : ∀ (rest : Bytes) (i cmd : Nat), ∃ k, (go cluster b .str i cmd rest).len = i + k ∧
    ((0x1B : UInt8) ∉ rest.take k ∨ ∃ x, (0x1B : UInt8) ∉ x ∧ rest.take k = x ++ [0x1B, 0x5C])
  | [], i, cmd => ⟨0, by simp [go], Or.inl (by simp)⟩
  | c :: rest, i, cmd => by
    obtain ⟨k, h1, h2⟩ := go_str b rest (i + 1) cmd
    by_cases hc : c = 0x1B
    · subst hc
      by_cases hst : hasSt (0x1B :: rest) = true
      · have : ∃ r, rest = 0x5C :: r := by
          unfold hasSt at hst
          split at hst
          · next e => cases e
          · next e => cases e; exact ⟨_, rfl⟩
          · cases hst
        obtain ⟨r, rfl⟩ := this
        exact ⟨2, by simp [go, hasSt], Or.inr ⟨[], by simp, rfl⟩⟩
      · exact ⟨0, by simp [go, hst], Or.inl (by simp)⟩
    · have ne : (0x1B : UInt8) ∉ (c :: rest).take 1 := by
        simp only [List.take_succ_cons, List.take_zero, List.mem_singleton]
        exact fun h => hc h.symm
      by_cases a1 : (c = 0x07 && hasOsc b) = true
      · exact ⟨1, by rw [go, if_pos a1], Or.inl ne⟩
      · by_cases a2 : (c = 0x18 || c = 0x1A) = true
        · exact ⟨0, by rw [go, if_neg a1, if_pos a2]; rfl, Or.inl (by simp)⟩
        · by_cases a3 : c = 0x9C
          · exact ⟨1, by rw [go, if_neg a1, if_neg a2, if_pos a3], Or.inl ne⟩
          · refine ⟨k + 1, by rw [go, if_neg a1, if_neg a2, if_neg a3, if_neg hc, h1]; omega, ?_⟩
            rw [List.take_succ_cons]
            rcases h2 with h2 | ⟨x, h2, h3⟩
            · left
              simp only [List.mem_cons, not_or]
              exact ⟨fun h => hc h.symm, h2⟩
            · refine Or.inr ⟨c :: x, ?_, by rw [h3]; rfl⟩
              simp only [List.mem_cons, not_or]
              exact ⟨fun h => hc h.symm, h2⟩

/-- every escape character in a piece is harmless, whatever comes after the piece -/
def GoodPiece (p : Bytes) : Prop := ∀ u a, p = u ++ 0x1B :: a → ∀ q, Harmless (a ++ q)

/-- every escape character in a line is harmless -/
def Good (r : Bytes) : Prop := ∀ u v, r = u ++ 0x1B :: v → Harmless v

theorem good_none {p : Bytes} (h : (0x1B : UInt8) ∉ p) : GoodPiece p := by
  rintro u a rfl
  exact absurd (by simp) h

theorem good_append {p q : Bytes} (hp : GoodPiece p) (hq : Good q) : Good (p ++ q) := by
  intro u v h
  rcases List.append_eq_append_iff.mp h with ⟨a, rfl, e⟩ | ⟨a, e1, e2⟩
  · exact hq a v e
  · cases a with
    | nil => exact hq [] v e2.symm
    | cons x a =>
      simp only [List.cons_append, List.cons.injEq] at e2
      obtain ⟨rfl, rfl⟩ := e2
      exact hp u a e1 q

theorem good_seq {priv par inter : Bytes} (h : Control priv par inter 0x6D) : GoodPiece (0x1B :: 0x5B :: (priv ++ (par ++ (inter ++ [0x6D])))) := by
  intro u a e q
  have hn : (0x1B : UInt8) ∉ priv ++ (par ++ (inter ++ [0x6D])) := fun hm => by
    have := (control_bytes h _ hm).1
    revert this; decide
  cases u with
  | nil =>
    simp only [List.nil_append, List.cons.injEq, true_and] at e
    subst e
    exact Or.inl ⟨priv, par, inter, q, h, by simp⟩
  | cons x u =>
    simp only [List.cons_append, List.cons.injEq] at e
    have hm : (0x1B : UInt8) ∈ (0x5B : UInt8) :: (priv ++ (par ++ (inter ++ [0x6D]))) := by rw [e.2]; simp
    rcases List.mem_cons.mp hm with h | h
    · exact absurd h (by decide)
    · exact absurd h hn

/-- what is taken over from one step of the decoder -/
theorem good_step (hc : Clusters cluster) {b : Bytes} (hb : b ≠ []) :
    GoodPiece (if Raw.hasCsiPrefix (b.take (decode cluster 0 b).len) then
        (if (decode cluster 0 b).isM then b.take (decode cluster 0 b).len else [])
      else if !Raw.hasOtherPrefix (b.take (decode cluster 0 b).len) then b.take (decode cluster 0 b).len else []) := by
  have hlen : 1 ≤ (decode cluster 0 b).len := (go_len hc b b (.ofNum 0) 0 0 hb (fun _ => hb) (fun _ => rfl)).1
  have gnil : GoodPiece [] := good_none (by simp)
  match b, hb with
  | c :: rest, _ =>
    have hseq : ∃ t, (c :: rest).take (decode cluster 0 (c :: rest)).len = c :: t := by
      obtain ⟨k, hk⟩ : ∃ k, (decode cluster 0 (c :: rest)).len = k + 1 := Nat.exists_eq_add_of_le' hlen
      exact ⟨rest.take k, by rw [hk, List.take_succ_cons]⟩
    by_cases c1 : c = 0x1B
    · subst c1
      split
      · next hp =>
        split
        · next hm =>
          obtain ⟨t, ht⟩ := hseq
          have : ∃ r, rest = 0x5B :: r := by
            rw [ht] at hp
            unfold Raw.hasCsiPrefix at hp
            split at hp
            · next e => cases e
            · next e =>
              cases e
              cases rest with
              | nil =>
                have := congrArg List.length ht
                simp only [List.length_take, List.length_cons, List.length_nil] at this
                omega
              | cons x r =>
                obtain ⟨k, hk⟩ : ∃ k, (decode cluster 0 (0x1B :: x :: r)).len = k + 1 := Nat.exists_eq_add_of_le' hlen
                rw [hk, List.take_succ_cons] at ht
                cases k with
                | zero => simp at ht
                | succ k => simp at ht; exact ⟨r, by rw [ht.1]⟩
            · cases hp
          obtain ⟨r, rfl⟩ := this
          have e : decode cluster 0 (0x1B :: 0x5B :: r) = go cluster (0x1B :: 0x5B :: r) .pre 2 0 r := by
            rw [decode, State.ofNum, go, if_pos rfl, go, if_pos (by decide)]
          rw [e] at hm ⊢
          obtain ⟨priv, par, inter, more, h1, -, -, h4, h5⟩ := go_m _ (by simp [hasDcs]) _ _ _ (Or.inl rfl) hm
          rw [h5]
          have : (0x1B :: 0x5B :: r).take (2 + (priv ++ (par ++ (inter ++ [0x6D]))).length) = 0x1B :: 0x5B :: (priv ++ (par ++ (inter ++ [0x6D]))) := by
            rw [Nat.add_comm, List.take_succ_cons, List.take_succ_cons, h4,
              show priv ++ (par ++ (inter ++ 0x6D :: more)) = (priv ++ (par ++ (inter ++ [0x6D]))) ++ more by simp, List.take_left]
          rw [this]
          exact good_seq h1
        · exact gnil
      · obtain ⟨t, ht⟩ := hseq
        rw [ht]
        exact gnil
    · by_cases c2 : c = 0x9B
      · subst c2
        obtain ⟨t, ht⟩ := hseq
        rw [if_pos (by rw [ht]; rfl)]
        split
        · next hm =>
          have e : decode cluster 0 (0x9B :: rest) = go cluster (0x9B :: rest) .pre 1 0 rest := by
            rw [decode, State.ofNum, go, if_neg (by decide), if_pos (by decide)]
          rw [e] at hm ⊢
          obtain ⟨priv, par, inter, more, h1, -, -, h4, h5⟩ := go_m _ (by simp [hasDcs]) _ _ _ (Or.inl rfl) hm
          rw [h5]
          have : (0x9B :: rest).take (1 + (priv ++ (par ++ (inter ++ [0x6D]))).length) = 0x9B :: (priv ++ (par ++ (inter ++ [0x6D]))) := by
            rw [Nat.add_comm, List.take_succ_cons, h4,
              show priv ++ (par ++ (inter ++ 0x6D :: more)) = (priv ++ (par ++ (inter ++ [0x6D]))) ++ more by simp, List.take_left]
          rw [this]
          refine good_none fun hm => ?_
          rcases List.mem_cons.mp hm with h | h
          · exact absurd h (by decide)
          · have := (control_bytes h1 _ h).1
            revert this; decide
        · exact gnil
      · have hnc : Raw.hasCsiPrefix ((c :: rest).take (decode cluster 0 (c :: rest)).len) = false := by
          obtain ⟨t, ht⟩ := hseq
          rw [ht]
          unfold Raw.hasCsiPrefix
          split
          · next e => cases e; exact absurd rfl c2
          · next e => cases e; exact absurd rfl c1
          · rfl
        rw [hnc, if_neg (by decide)]
        by_cases c3 : c = 0x90 ∨ c = 0x9D ∨ c = 0x9F
        · have : Raw.hasOtherPrefix ((c :: rest).take (decode cluster 0 (c :: rest)).len) = true := by
            obtain ⟨t, ht⟩ := hseq
            rw [ht]
            rcases c3 with rfl | rfl | rfl <;> rfl
          rw [this]
          exact gnil
        · simp only [not_or] at c3
          split
          · by_cases c4 : c = 0x98 ∨ c = 0x9E
            · have e : decode cluster 0 (c :: rest) = go cluster (c :: rest) .str 1 0xFF rest := by
                rw [decode, State.ofNum, go, if_neg c1, if_neg (by simp [c2, c3.1]), if_pos (by simp [c3.2.1, c3.2.2, c4])]
              rw [e]
              obtain ⟨k, h1, h2⟩ := go_str (cluster := cluster) (c :: rest) rest 1 0xFF
              rw [h1, Nat.add_comm, List.take_succ_cons]
              rcases h2 with h2 | ⟨x, h2, h3⟩
              · refine good_none fun hm => ?_
                rcases List.mem_cons.mp hm with h | h
                · exact c1 h.symm
                · exact h2 h
              · rw [h3]
                intro u a e q
                have hx : (0x1B : UInt8) ∉ c :: x := by
                  simp only [List.mem_cons, not_or]
                  exact ⟨fun h => c1 h.symm, h2⟩
                rw [show c :: (x ++ [0x1B, 0x5C]) = (c :: x) ++ [0x1B, 0x5C] from rfl] at e
                rcases List.append_eq_append_iff.mp e with ⟨y, e1, e2⟩ | ⟨y, e1, e2⟩
                · cases y with
                  | nil =>
                    simp only [List.nil_append, List.cons.injEq, true_and] at e2
                    subst e2
                    exact Or.inr ⟨q, rfl⟩
                  | cons z y =>
                    simp only [List.cons_append, List.cons.injEq] at e2
                    have hm : (0x1B : UInt8) ∈ ([0x5C] : Bytes) := by rw [e2.2]; simp
                    exact absurd hm (by decide)
                · cases y with
                  | nil =>
                    simp only [List.nil_append, List.cons.injEq, true_and] at e2
                    subst e2
                    exact Or.inr ⟨q, rfl⟩
                  | cons z y =>
                    simp only [List.cons_append, List.cons.injEq] at e2
                    exact absurd (by rw [e1, ← e2.1]; simp) hx
            · simp only [not_or] at c4
              have e : decode cluster 0 (c :: rest) = if c.toNat < 0xC0 then ⟨1, false, 0⟩ else ⟨cluster (c :: rest), false, 0⟩ := by
                rw [decode, State.ofNum, go, if_neg c1, if_neg (by simp [c2, c3.1]), if_neg (by simp [c3.2.1, c3.2.2, c4.1, c4.2])]
              rw [e]
              split
              · refine good_none ?_
                simp only [List.take_succ_cons, List.take_zero, List.mem_singleton]
                exact fun h => c1 h.symm
              · exact good_none (hc.alone c rest (by omega))
          · exact gnil

theorem good_loop (hc : Clusters cluster) : ∀ (fuel : Nat) (b : Bytes), Good (Raw.sanitizeLoop (decode cluster) fuel 0 b)
  | 0, b => by intro u v h; simp [Raw.sanitizeLoop] at h
  | fuel + 1, b => by
    by_cases hb : b = []
    · rw [Raw.sanitizeLoop, if_pos hb]; intro u v h; simp at h
    · have hlen : 1 ≤ (decode cluster 0 b).len := (go_len hc b b (.ofNum 0) 0 0 hb (fun _ => hb) (fun _ => rfl)).1
      rw [loop_step _ hb (by omega)]
      refine good_append (good_step hc hb) ?_
      rcases go_state (cluster := cluster) b b (.ofNum 0) 0 0 (by simp) with h | h
      · have : (decode cluster 0 b).state = 0 := h
        rw [this]
        exact good_loop hc fuel _
      · have : (decode cluster 0 b).len = b.length := h
        rw [this, List.drop_length]
        intro u v h
        cases fuel <;> simp [Raw.sanitizeLoop] at h

/-! ### Removing control characters keeps it so -/

theorem runesLoop_fuel : ∀ (fuel : Nat) (s : Bytes), s.length ≤ fuel → Raw.runesLoop fuel s = Raw.runes s := by
  have key : ∀ (n fuel fuel' : Nat) (s : Bytes), s.length ≤ n → s.length ≤ fuel → s.length ≤ fuel' → Raw.runesLoop fuel s = Raw.runesLoop fuel' s := by
    intro n
    induction n with
    | zero =>
      intro fuel fuel' s h _ _
      have : s = [] := List.length_eq_zero_iff.mp (by omega)
      subst this
      cases fuel <;> cases fuel' <;> simp [Raw.runesLoop]
    | succ n ih =>
      intro fuel fuel' s h hf hf'
      match s with
      | [] => cases fuel <;> cases fuel' <;> simp [Raw.runesLoop]
      | b :: rest =>
        obtain ⟨f, rfl⟩ : ∃ f, fuel = f + 1 := ⟨fuel - 1, by simp at hf; omega⟩
        obtain ⟨f', rfl⟩ : ∃ f, fuel' = f + 1 := ⟨fuel' - 1, by simp at hf'; omega⟩
        obtain ⟨-, -, h3, -⟩ := Raw.decode_ascii b rest
        rw [Raw.runesLoop, Raw.runesLoop, if_neg (by simp), if_neg (by simp)]
        congr 1
        simp only [List.length_cons] at h hf hf'
        refine ih _ _ _ ?_ ?_ ?_ <;> simp only [List.length_drop, List.length_cons] <;> omega
  exact fun fuel s h => key _ _ _ s (Nat.le_refl _) h (Nat.le_refl _)

theorem runes_cons (b : UInt8) (rest : Bytes) : Raw.runes (b :: rest) =
    (Raw.decodeRune (b :: rest)).1 :: Raw.runes ((b :: rest).drop (Raw.decodeRune (b :: rest)).2) := by
  obtain ⟨-, -, h3, -⟩ := Raw.decode_ascii b rest
  rw [Raw.runes, List.length_cons, Raw.runesLoop, if_neg (by simp)]
  congr 1
  exact runesLoop_fuel _ _ (by simp only [List.length_drop, List.length_cons]; omega)

theorem runes_ascii {b : UInt8} (hb : b.toNat < 0x80) (rest : Bytes) : Raw.runes (b :: rest) = b.toNat :: Raw.runes rest := by
  rw [runes_cons, (Raw.decode_ascii b rest).1 hb]; rfl

theorem runes_asciis : ∀ {a : Bytes}, (∀ b ∈ a, b.toNat < 0x80) → ∀ rest, Raw.runes (a ++ rest) = a.map (·.toNat) ++ Raw.runes rest
  | [], _, _ => rfl
  | b :: a, h, rest => by
    rw [List.cons_append, runes_ascii (h b List.mem_cons_self), runes_asciis (fun x hx => h x (List.mem_cons_of_mem _ hx))]; rfl

/-- a code point below `0x80` among those decoded stands for its byte -/
theorem runes_split : ∀ (n : Nat) (s : Bytes) {l m : List Nat} {r : Nat}, s.length ≤ n → Raw.runes s = l ++ r :: m → r < 0x80 →
    ∃ u v b, s = u ++ b :: v ∧ b.toNat = r ∧ Raw.runes v = m
  | n, [], l, m, r, _, h, _ => by simp [Raw.runes, Raw.runesLoop] at h
  | 0, b :: rest, _, _, _, hn, _, _ => by simp at hn
  | n + 1, b :: rest, l, m, r, hn, h, hr => by
    obtain ⟨h1, h2, h3, h4, -⟩ := Raw.decode_ascii b rest
    rw [runes_cons] at h
    cases l with
    | nil =>
      simp only [List.nil_append, List.cons.injEq] at h
      have hb : b.toNat < 0x80 := by
        rcases Nat.lt_or_ge b.toNat 0x80 with hb | hb
        · exact hb
        · have := h2 (by omega); omega
      rw [h1 hb] at h
      exact ⟨[], rest, b, rfl, h.1, h.2⟩
    | cons x l =>
      simp only [List.cons_append, List.cons.injEq] at h
      obtain ⟨u, v, c, e, hc, hm⟩ := runes_split n _ (by simp only [List.length_drop, List.length_cons] at hn ⊢; omega) h.2 hr
      refine ⟨(b :: rest).take (Raw.decodeRune (b :: rest)).2 ++ u, v, c, ?_, hc, hm⟩
      rw [List.append_assoc, ← e, List.take_append_drop]

/-- an escape character among encoded code points is one of them -/
theorem encode_split : ∀ (rs : List Nat), (∀ r ∈ rs, r < 0x110000) → ∀ {u v : Bytes}, rs.flatMap Raw.encodeRune = u ++ 0x1B :: v →
    ∃ l m, rs = l ++ 0x1B :: m ∧ v = m.flatMap Raw.encodeRune
  | [], _, u, v, h => by simp at h
  | r :: rs, hlt, u, v, h => by
    have hr := hlt r List.mem_cons_self
    have hrs := fun x hx => hlt x (List.mem_cons_of_mem _ hx)
    rw [List.flatMap_cons] at h
    have esc : (0x1B : UInt8) ∈ Raw.encodeRune r → r = 0x1B := by
      intro hm
      rcases Raw.mem_encodeRune hm with ⟨-, h2⟩ | h2
      · exact h2.symm
      · rcases Nat.lt_or_ge 0x7F r with h7 | h7
        · exact absurd (h2 ⟨h7, hr⟩) (by decide)
        · rw [Raw.encodeRune, if_pos h7, List.mem_singleton] at hm
          have := congrArg UInt8.toNat hm
          rw [Raw.toNat_ofNat _ (by omega)] at this
          exact this.symm
    rcases List.append_eq_append_iff.mp h with ⟨a, rfl, e⟩ | ⟨a, e1, e2⟩
    · obtain ⟨l, m, rfl, e'⟩ := encode_split rs hrs e
      exact ⟨r :: l, m, rfl, e'⟩
    · cases a with
      | nil =>
        obtain ⟨l, m, rfl, e'⟩ := encode_split rs hrs (u := []) e2.symm
        exact ⟨r :: l, m, rfl, e'⟩
      | cons x a =>
        simp only [List.cons_append, List.cons.injEq] at e2
        obtain ⟨rfl, rfl⟩ := e2
        obtain rfl := esc (by rw [e1]; simp)
        have : a = [] := by
          have hl := congrArg List.length e1
          simp [Raw.encodeRune] at hl
          exact List.length_eq_zero_iff.mp (by omega)
        subst this
        exact ⟨[], rs, rfl, rfl⟩

theorem encode_asciis : ∀ {a : Bytes}, (∀ b ∈ a, b.toNat < 0x80) → (a.map (·.toNat)).flatMap Raw.encodeRune = a
  | [], _ => rfl
  | b :: a, h => by
    have := h b List.mem_cons_self
    rw [List.map_cons, List.flatMap_cons, encode_asciis (fun x hx => h x (List.mem_cons_of_mem _ hx)), Raw.encodeRune, if_pos (by omega)]
    simp

theorem filter_asciis {a : Bytes} (h : ∀ b ∈ a, 0x20 ≤ b.toNat ∧ b.toNat < 0x80) :
    (a.map (·.toNat)).filter (fun r => !Raw.isUnsafeControl r) = a.map (·.toNat) := by
  rw [List.filter_eq_self]
  intro r hr
  obtain ⟨b, hb, rfl⟩ := List.mem_map.mp hr
  have := h b hb
  simp [Raw.isUnsafeControl]; omega

theorem filter_split {α : Type} (f : α → Bool) {x : α} : ∀ (rs : List α) {l m : List α}, rs.filter f = l ++ x :: m → ∃ l' m', rs = l' ++ x :: m' ∧ m = m'.filter f
  | [], l, m, h => by simp at h
  | r :: rs, l, m, h => by
    rw [List.filter_cons] at h
    split at h
    · cases l with
      | nil => simp only [List.nil_append, List.cons.injEq] at h; exact ⟨[], rs, by rw [h.1]; rfl, h.2.symm⟩
      | cons y l =>
        simp only [List.cons_append, List.cons.injEq] at h
        obtain ⟨l', m', rfl, e⟩ := filter_split f rs h.2
        exact ⟨r :: l', m', rfl, e⟩
    · obtain ⟨l', m', rfl, e⟩ := filter_split f rs h
      exact ⟨r :: l', m', rfl, e⟩

theorem good_strip {r : Bytes} (h : Good r) : Good (Raw.stripControlChars r) := by
  rw [Raw.stripControlChars]
  split
  · exact h
  · intro u v e
    obtain ⟨l, m, e1, rfl⟩ := encode_split _ (fun x hx => Raw.runes_lt (List.mem_filter.mp hx).1) e
    obtain ⟨l', m', e2, rfl⟩ := filter_split _ _ e1
    obtain ⟨u', v', b, e3, hb, rfl⟩ := runes_split _ r (Nat.le_refl _) e2 (by decide)
    have : b = 0x1B := UInt8.toNat_inj.mp hb
    subst this
    rcases h u' v' e3 with ⟨priv, par, inter, more, hc, rfl⟩ | ⟨more, rfl⟩
    · have hx : ∀ b ∈ (0x5B : UInt8) :: (priv ++ (par ++ (inter ++ [0x6D]))), 0x20 ≤ b.toNat ∧ b.toNat < 0x80 := by
        intro b hb
        rcases List.mem_cons.mp hb with rfl | hb
        · decide
        · exact control_bytes hc b hb
      have e4 : (0x5B : UInt8) :: (priv ++ (par ++ (inter ++ 0x6D :: more))) = (0x5B :: (priv ++ (par ++ (inter ++ [0x6D])))) ++ more := by simp
      rw [e4, runes_asciis (fun b hb => (hx b hb).2), List.filter_append, List.flatMap_append, filter_asciis hx, encode_asciis (fun b hb => (hx b hb).2)]
      exact Or.inl ⟨priv, par, inter, _, hc, by simp; rfl⟩
    · have hx : ∀ b ∈ ([0x5C] : Bytes), 0x20 ≤ b.toNat ∧ b.toNat < 0x80 := by decide
      rw [show (0x5C : UInt8) :: more = [0x5C] ++ more from rfl, runes_asciis (fun b hb => (hx b hb).2), List.filter_append, List.flatMap_append,
        filter_asciis hx, encode_asciis (fun b hb => (hx b hb).2)]
      exact Or.inr ⟨_, rfl⟩

end Bab.Ansi
