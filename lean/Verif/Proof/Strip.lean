import Verif.Proof.Ansi
/-
Lemmas about the removal of all escape sequences.
-/

namespace Bab.Ansi
open Bab Bab.Spec.Ansi

theorem strip_cons (st : TState) (c : UInt8) (r : Bytes) : stripGo st 0 (c :: r) =
    match trans st c with
    | (.write, st') => c :: stripGo st' 0 r
    | (.collect, _) => c :: stripGo .ground (follow c) r
    | (.skip, st') => stripGo st' 0 r := by
  rw [stripGo]
  rcases trans st c with ⟨_ | _ | _, st'⟩ <;> rfl

theorem strip_skip {st st' : TState} {c : UInt8} (h : trans st c = (.skip, st')) (r : Bytes) : stripGo st 0 (c :: r) = stripGo st' 0 r := by
  rw [strip_cons, h]

/-- the bytes that belong to a character are written -/
theorem strip_follow : ∀ (x : Bytes) (r : Bytes), stripGo .ground x.length (x ++ r) = x ++ stripGo .ground 0 r
  | [], _ => rfl
  | c :: x, r => by rw [List.length_cons, List.cons_append, stripGo, strip_follow x r]; rfl

theorem anywhere_lead {c : UInt8} (h : 0xC2 ≤ c.toNat ∧ c.toNat ≤ 0xF4) : anywhere c = (.collect, .ground) := by
  have ne : ∀ y : UInt8, y.toNat < 0xC2 → c ≠ y := by rintro y hy rfl; omega
  rw [anywhere]
  simp [within_no (show ¬ (0x80 ≤ c.toNat ∧ c.toNat ≤ 0x8F) by omega), within_no (show ¬ (0x91 ≤ c.toNat ∧ c.toNat ≤ 0x97) by omega),
    within_iff.mpr h, ne 0x18 (by decide), ne 0x1A (by decide), ne 0x99 (by decide), ne 0x9A (by decide), ne 0x9C (by decide), ne 0x1B (by decide),
    ne 0x98 (by decide), ne 0x9E (by decide), ne 0x9F (by decide), ne 0x9B (by decide), ne 0x90 (by decide), ne 0x9D (by decide)]

/-- the bytes of a character -/
theorem encode_form (c : Char) : (∃ b, Raw.encodeRune c.toNat = [b] ∧ b.toNat = c.toNat ∧ c.toNat < 0x80) ∨
    ∃ b x, Raw.encodeRune c.toNat = b :: x ∧ 0xC2 ≤ b.toNat ∧ b.toNat ≤ 0xF4 ∧ follow b = x.length ∧ ∀ y ∈ x, 0x80 ≤ y.toNat ∧ y.toNat ≤ 0xBF := by
  have hr := Raw.char_range c
  generalize c.toNat = n at *
  rw [Raw.encodeRune]
  split
  · left
    exact ⟨_, rfl, Raw.toNat_ofNat _ (by omega), by omega⟩
  · right
    split
    · refine ⟨_, _, rfl, ?_, ?_, ?_, ?_⟩
      · rw [Raw.toNat_ofNat _ (by omega)]; omega
      · rw [Raw.toNat_ofNat _ (by omega)]; omega
      · rw [follow, Raw.toNat_ofNat _ (by omega), if_pos (by omega)]; rfl
      · intro y hy
        rw [List.mem_singleton] at hy
        rw [hy, Raw.toNat_ofNat _ (by omega)]; omega
    · split
      · refine ⟨_, _, rfl, ?_, ?_, ?_, ?_⟩
        · rw [Raw.toNat_ofNat _ (by omega)]; omega
        · rw [Raw.toNat_ofNat _ (by omega)]; omega
        · rw [follow, Raw.toNat_ofNat _ (by omega), if_neg (by omega), if_pos (by omega)]; rfl
        · intro y hy
          simp only [List.mem_cons, List.not_mem_nil, or_false] at hy
          rcases hy with rfl | rfl <;> rw [Raw.toNat_ofNat _ (by omega)] <;> omega
      · refine ⟨_, _, rfl, ?_, ?_, ?_, ?_⟩
        · rw [Raw.toNat_ofNat _ (by omega)]; omega
        · rw [Raw.toNat_ofNat _ (by omega)]; omega
        · rw [follow, Raw.toNat_ofNat _ (by omega), if_neg (by omega), if_neg (by omega)]; rfl
        · intro y hy
          simp only [List.mem_cons, List.not_mem_nil, or_false] at hy
          rcases hy with rfl | rfl | rfl <;> rw [Raw.toNat_ofNat _ (by omega)] <;> omega

/-- text is written as it is -/
theorem strip_text : ∀ (s : Str) (r : Bytes), '\x1b' ∉ s → stripGo .ground 0 (Raw.utf8 s ++ r) = Raw.utf8 s ++ stripGo .ground 0 r
  | [], _, _ => rfl
  | c :: s, r, h => by
    have ih := strip_text s r (fun hm => h (List.mem_cons_of_mem _ hm))
    have hce : c ≠ '\x1b' := fun e => h (e ▸ List.mem_cons_self)
    rw [Raw.utf8_cons, List.append_assoc, List.append_assoc]
    rcases encode_form c with ⟨b, hb, hn, h8⟩ | ⟨b, x, hb, h1, h2, h3, -⟩
    · have hb1b : b ≠ 0x1B := by
        rintro rfl
        exact hce (Char.toNat_inj.mp (hn.symm.trans rfl))
      have : trans .ground b = (.write, .ground) := by
        rw [trans, if_pos]
        simp [within, hb1b]; omega
      rw [hb, List.singleton_append, List.singleton_append, strip_cons, this]
      dsimp only
      rw [ih]
    · have : trans .ground b = (.collect, .ground) := by
        rw [trans, if_neg, anywhere_lead ⟨h1, h2⟩]
        simp [within]; omega
      rw [hb, List.cons_append, List.cons_append, strip_cons, this]
      dsimp only
      rw [h3, strip_follow, ih]

/-- bytes that leave the state alone and are not written -/
theorem strip_run {st : TState} : ∀ (x r : Bytes), (∀ b ∈ x, trans st b = (.skip, st)) → stripGo st 0 (x ++ r) = stripGo st 0 r
  | [], _, _ => rfl
  | b :: x, r, h => by
    rw [List.cons_append, strip_skip (h b List.mem_cons_self), strip_run x r fun y hy => h y (List.mem_cons_of_mem _ hy)]

/-- all bytes, for checking the table -/
theorem all_bytes {P : UInt8 → Prop} [DecidablePred P] (h : ∀ n : Fin 256, P (UInt8.ofNat n.val)) (b : UInt8) : P b := by
  have := h ⟨b.toNat, b.toNat_lt⟩
  simpa using this

/-! The table, entry by entry. -/

theorem t_csi (b : UInt8) : (0x3C ≤ b.toNat ∧ b.toNat ≤ 0x3F ∨ 0x30 ≤ b.toNat ∧ b.toNat ≤ 0x3B → trans .csiEntry b = (.skip, .csiParam) ∧ trans .csiParam b = (.skip, .csiParam)) ∧
    (0x20 ≤ b.toNat ∧ b.toNat ≤ 0x2F → trans .csiEntry b = (.skip, .csiInter) ∧ trans .csiParam b = (.skip, .csiInter) ∧ trans .csiInter b = (.skip, .csiInter)) ∧
    (0x40 ≤ b.toNat ∧ b.toNat ≤ 0x7E → trans .csiEntry b = (.skip, .ground) ∧ trans .csiParam b = (.skip, .ground) ∧ trans .csiInter b = (.skip, .ground)) := by
  revert b
  exact all_bytes (by decide +kernel)

theorem t_dcs (b : UInt8) : (0x3C ≤ b.toNat ∧ b.toNat ≤ 0x3F ∨ 0x30 ≤ b.toNat ∧ b.toNat ≤ 0x3B → trans .dcsEntry b = (.skip, .dcsParam) ∧ trans .dcsParam b = (.skip, .dcsParam)) ∧
    (0x20 ≤ b.toNat ∧ b.toNat ≤ 0x2F → trans .dcsEntry b = (.skip, .dcsInter) ∧ trans .dcsParam b = (.skip, .dcsInter) ∧ trans .dcsInter b = (.skip, .dcsInter)) ∧
    (0x40 ≤ b.toNat ∧ b.toNat ≤ 0x7E → trans .dcsEntry b = (.skip, .dcsStr) ∧ trans .dcsParam b = (.skip, .dcsStr) ∧ trans .dcsInter b = (.skip, .dcsStr)) := by
  revert b
  exact all_bytes (by decide +kernel)

theorem t_str (b : UInt8) : (b ≠ 0x18 ∧ b ≠ 0x1A ∧ b ≠ 0x1B ∧ b ≠ 0x9C → trans .dcsStr b = (.skip, .dcsStr) ∧ (b ≠ 0x07 → trans .osc b = (.skip, .osc)) ∧
      (b.toNat < 0x80 → trans .str b = (.skip, .str))) := by
  revert b
  exact all_bytes (by decide +kernel)

theorem t_esc (b : UInt8) : (0x20 ≤ b.toNat ∧ b.toNat ≤ 0x2F → trans .esc b = (.skip, .escInter) ∧ trans .escInter b = (.skip, .escInter)) ∧
    (0x30 ≤ b.toNat ∧ b.toNat ≤ 0x7E ∧ b ∉ ([0x5B, 0x50, 0x5D, 0x58, 0x5E, 0x5F] : Bytes) → trans .esc b = (.skip, .ground) ∧ trans .escInter b = (.skip, .ground)) := by
  revert b
  exact all_bytes (by decide +kernel)

/-- an escape character is not written, and no byte between characters asks for more -/
theorem t_write (st : TState) (b : UInt8) : ((trans st b).1 = .write → b ≠ 0x1B) ∧ ((trans st b).1 = .collect → 0xC2 ≤ b.toNat ∧ b.toNat ≤ 0xF4) := by
  revert b
  cases st <;> exact all_bytes (by decide +kernel)

/-! Sequences. `fin`, `next` and so on are the states of control sequences or of the beginning of device control strings. -/

/-- the three states of parameters, and the state after the final byte -/
structure Params where
  entry : TState
  param : TState
  inter : TState
  done : TState
  par : ∀ b : UInt8, (0x3C ≤ b.toNat ∧ b.toNat ≤ 0x3F ∨ 0x30 ≤ b.toNat ∧ b.toNat ≤ 0x3B) → trans entry b = (.skip, param) ∧ trans param b = (.skip, param)
  mid : ∀ b : UInt8, 0x20 ≤ b.toNat ∧ b.toNat ≤ 0x2F → trans entry b = (.skip, inter) ∧ trans param b = (.skip, inter) ∧ trans inter b = (.skip, inter)
  last : ∀ b : UInt8, 0x40 ≤ b.toNat ∧ b.toNat ≤ 0x7E → trans entry b = (.skip, done) ∧ trans param b = (.skip, done) ∧ trans inter b = (.skip, done)

def csi : Params := ⟨.csiEntry, .csiParam, .csiInter, .ground, fun b => (t_csi b).1, fun b => (t_csi b).2.1, fun b => (t_csi b).2.2⟩
def dcs : Params := ⟨.dcsEntry, .dcsParam, .dcsInter, .dcsStr, fun b => (t_dcs b).1, fun b => (t_dcs b).2.1, fun b => (t_dcs b).2.2⟩

theorem strip_inter (P : Params) {inter : Bytes} (hi : AllIn 0x20 0x2F inter) {st : TState} (hst : st = P.entry ∨ st = P.param ∨ st = P.inter) (r : Bytes) :
    ∃ st', (st' = P.entry ∨ st' = P.param ∨ st' = P.inter) ∧ stripGo st 0 (inter ++ r) = stripGo st' 0 r := by
  cases inter with
  | nil => exact ⟨st, hst, rfl⟩
  | cons x inter =>
    obtain ⟨a1, a2, a3⟩ := P.mid x (hi x List.mem_cons_self)
    refine ⟨P.inter, Or.inr (Or.inr rfl), ?_⟩
    have h : stripGo P.inter 0 (inter ++ r) = stripGo P.inter 0 r := strip_run _ _ fun b hb => (P.mid b (hi b (List.mem_cons_of_mem _ hb))).2.2
    rw [List.cons_append, ← h]
    rcases hst with rfl | rfl | rfl
    · exact strip_skip a1 _
    · exact strip_skip a2 _
    · exact strip_skip a3 _

theorem strip_par (P : Params) {par : Bytes} (hp : ∀ b ∈ par, 0x3C ≤ b.toNat ∧ b.toNat ≤ 0x3F ∨ 0x30 ≤ b.toNat ∧ b.toNat ≤ 0x3B) (r : Bytes) :
    ∃ st', (st' = P.entry ∨ st' = P.param) ∧ stripGo P.entry 0 (par ++ r) = stripGo st' 0 r := by
  cases par with
  | nil => exact ⟨_, Or.inl rfl, rfl⟩
  | cons x par =>
    refine ⟨P.param, Or.inr rfl, ?_⟩
    rw [List.cons_append, strip_skip (P.par x (hp x List.mem_cons_self)).1, strip_run _ _ fun b hb => (P.par b (hp b (List.mem_cons_of_mem _ hb))).2]

theorem strip_params (P : Params) {priv par inter : Bytes} (h1 : AllIn 0x3C 0x3F priv) (h2 : AllIn 0x30 0x3B par) (h3 : AllIn 0x20 0x2F inter) (r : Bytes) :
    ∃ st', (st' = P.entry ∨ st' = P.param ∨ st' = P.inter) ∧ stripGo P.entry 0 (priv ++ (par ++ (inter ++ r))) = stripGo st' 0 r := by
  rw [← List.append_assoc]
  obtain ⟨st, hst, e⟩ := strip_par P (par := priv ++ par) (fun b hb => by
    rcases List.mem_append.mp hb with hb | hb
    · exact Or.inl (h1 b hb)
    · exact Or.inr (h2 b hb)) (inter ++ r)
  obtain ⟨st', hst', e'⟩ := strip_inter P h3 (st := st) (by rcases hst with h | h <;> simp [h]) r
  exact ⟨st', hst', by rw [e, e']⟩

theorem strip_control (P : Params) {priv par inter : Bytes} {fin : UInt8} (h : Control priv par inter fin) (r : Bytes) :
    stripGo P.entry 0 (priv ++ (par ++ (inter ++ fin :: r))) = stripGo P.done 0 r := by
  obtain ⟨st, hst, e⟩ := strip_params P h.1 h.2.1 h.2.2.1 (fin :: r)
  obtain ⟨a1, a2, a3⟩ := P.last fin h.2.2.2
  rw [e]
  rcases hst with rfl | rfl | rfl
  · exact strip_skip a1 _
  · exact strip_skip a2 _
  · exact strip_skip a3 _

/-- a sequence is left out -/
theorem strip_piece {p : Piece} (hok : p.OK) (hs : p.Simple) (hn : ∀ s, p ≠ .text s) (r : Bytes) :
    stripGo .ground 0 (p.bytes ++ r) = stripGo .ground 0 r := by
  have t0 : trans .ground 0x1B = (.skip, .esc) := by decide
  have tst : ∀ st, trans st 0x1B = (.skip, .esc) → ∀ r, stripGo st 0 (0x1B :: 0x5C :: r) = stripGo .ground 0 r := by
    intro st h r
    rw [strip_skip h, strip_skip (show trans .esc 0x5C = (.skip, .ground) by decide)]
  cases p with
  | text s => exact absurd rfl (hn s)
  | csi priv par inter fin =>
    have e : (Piece.csi priv par inter fin).bytes ++ r = 0x1B :: 0x5B :: (priv ++ (par ++ (inter ++ fin :: r))) := by simp [Piece.bytes]
    rw [e, strip_skip t0, strip_skip (show trans .esc 0x5B = (.skip, .csiEntry) by decide)]
    exact strip_control csi hok r
  | esc inter fin =>
    obtain ⟨h1, h2, h3, h4⟩ := hok
    have e : (Piece.esc inter fin).bytes ++ r = 0x1B :: (inter ++ fin :: r) := by simp [Piece.bytes]
    rw [e, strip_skip t0]
    obtain ⟨a1, a2⟩ := (t_esc fin).2 ⟨h2, h3, h4⟩
    cases inter with
    | nil => exact strip_skip a1 _
    | cons x inter =>
      rw [List.cons_append, strip_skip ((t_esc x).1 (h1 x List.mem_cons_self)).1,
        strip_run _ _ fun b hb => ((t_esc b).1 (h1 b (List.mem_cons_of_mem _ hb))).2, strip_skip a2]
  | osc data bell =>
    obtain ⟨h1, h2⟩ := hok
    have e : (Piece.osc data bell).bytes ++ r = 0x1B :: 0x5D :: (data ++ ((if bell then [0x07] else [0x1B, 0x5C]) ++ r)) := by simp [Piece.bytes]
    rw [e, strip_skip t0, strip_skip (show trans .esc 0x5D = (.skip, .osc) by decide),
      strip_run _ _ fun b hb => ((t_str b) (h1 b hb)).2.1 (fun e => h2 (e ▸ hb))]
    cases bell with
    | true => exact strip_skip (show trans .osc 0x07 = (.skip, .ground) by decide) _
    | false => exact tst _ (by decide) _
  | str kind data =>
    obtain ⟨h1, h2⟩ := hok
    have e : (Piece.str kind data).bytes ++ r = 0x1B :: kind :: (data ++ (0x1B :: 0x5C :: r)) := by simp [Piece.bytes]
    have hk : trans .esc kind = (.skip, .str) := by
      simp only [List.mem_cons, List.not_mem_nil, or_false] at h1
      rcases h1 with rfl | rfl | rfl <;> decide
    rw [e, strip_skip t0, strip_skip hk, strip_run _ _ fun b hb => ((t_str b) (h2 b hb)).2.2 (hs b hb)]
    exact tst _ (by decide) _
  | dcs priv par inter fin data =>
    obtain ⟨h1, h2⟩ := hok
    have e : (Piece.dcs priv par inter fin data).bytes ++ r =
        0x1B :: 0x50 :: (priv ++ (par ++ (inter ++ fin :: (data ++ (0x1B :: 0x5C :: r))))) := by simp [Piece.bytes]
    rw [e, strip_skip t0, strip_skip (show trans .esc 0x50 = (.skip, .dcsEntry) by decide)]
    have := strip_control dcs h1 (data ++ (0x1B :: 0x5C :: r))
    rw [show dcs.entry = .dcsEntry from rfl] at this
    rw [this, show dcs.done = .dcsStr from rfl, strip_run _ _ fun b hb => ((t_str b) (h2 b hb)).1]
    exact tst _ (by decide) _

theorem strip_pieces : ∀ {ps : List Piece}, (∀ p ∈ ps, p.OK) → (∀ p ∈ ps, p.Simple) → ∀ r, stripGo .ground 0 (bytes ps ++ r) = Raw.utf8 (texts ps) ++ stripGo .ground 0 r
  | [], _, _, _ => rfl
  | p :: ps, hok, hs, r => by
    have ih := strip_pieces (fun q hq => hok q (List.mem_cons_of_mem _ hq)) (fun q hq => hs q (List.mem_cons_of_mem _ hq)) r
    have hb : bytes (p :: ps) ++ r = p.bytes ++ (bytes ps ++ r) := by simp [bytes]
    rw [hb]
    by_cases ht : ∃ t, p = .text t
    · obtain ⟨t, rfl⟩ := ht
      have e : texts (.text t :: ps) = t ++ texts ps := by simp [texts]
      rw [e, Raw.utf8_append, List.append_assoc, ← ih]
      exact strip_text t _ (hok _ List.mem_cons_self)
    · rw [strip_piece (hok p List.mem_cons_self) (hs p List.mem_cons_self) (fun s e => ht ⟨s, e⟩), ih]
      have e : texts (p :: ps) = texts ps := by
        cases p with
        | text t => exact absurd ⟨t, rfl⟩ ht
        | _ => simp [texts]
      rw [e]

/-- only bytes of the line are written -/
theorem strip_mem : ∀ (b : Bytes) (st : TState) (k : Nat) {x : UInt8}, x ∈ stripGo st k b → x ∈ b
  | [], st, k, x, h => by simp [stripGo] at h
  | c :: r, st, k + 1, x, h => by
    rw [stripGo] at h
    rcases List.mem_cons.mp h with rfl | h
    · exact List.mem_cons_self
    · exact List.mem_cons_of_mem _ (strip_mem r _ _ h)
  | c :: r, st, 0, x, h => by
    rw [strip_cons] at h
    split at h
    · rcases List.mem_cons.mp h with rfl | h
      · exact List.mem_cons_self
      · exact List.mem_cons_of_mem _ (strip_mem r _ _ h)
    · rcases List.mem_cons.mp h with rfl | h
      · exact List.mem_cons_self
      · exact List.mem_cons_of_mem _ (strip_mem r _ _ h)
    · exact List.mem_cons_of_mem _ (strip_mem r _ _ h)

/-- the bytes of a character after the first, met in whatever state -/
theorem strip_rest : ∀ (x : Bytes) (st : TState) (r : Bytes), (∀ y ∈ x, 0x80 ≤ y.toNat ∧ y.toNat ≤ 0xBF) →
    ∃ st' w, stripGo st 0 (x ++ r) = w ++ stripGo st' 0 r ∧ (0x1B : UInt8) ∉ w
  | [], st, r, _ => ⟨st, [], rfl, by simp⟩
  | c :: x, st, r, h => by
    have hc := h c List.mem_cons_self
    have ih := fun st' => strip_rest x st' r (fun y hy => h y (List.mem_cons_of_mem _ hy))
    obtain ⟨h1, h2⟩ := t_write st c
    rw [List.cons_append, strip_cons]
    split
    · next st' e =>
      obtain ⟨st'', w, a1, a2⟩ := ih st'
      refine ⟨st'', c :: w, by rw [a1]; rfl, ?_⟩
      simp only [List.mem_cons, not_or]
      exact ⟨fun he => h1 (by rw [e]) he.symm, a2⟩
    · next e => have := h2 (by rw [e]); omega
    · next st' e => exact ih st'

/-- no escape character is written of valid text -/
theorem strip_no_escape : ∀ (s : Str) (st : TState), (0x1B : UInt8) ∉ stripGo st 0 (Raw.utf8 s)
  | [], st => by simp [Raw.utf8, stripGo]
  | c :: s, st => by
    have ih := fun st => strip_no_escape s st
    rw [Raw.utf8_cons]
    rcases encode_form c with ⟨b, hb, hn, h8⟩ | ⟨b, x, hb, h1, h2, h3, h4⟩
    · rw [hb, List.singleton_append, strip_cons]
      obtain ⟨w1, w2⟩ := t_write st b
      split
      · next st' e =>
        simp only [List.mem_cons, not_or]
        exact ⟨fun he => w1 (by rw [e]) he.symm, ih _⟩
      · next e => have := w2 (by rw [e]); omega
      · exact ih _
    · have hne : b ≠ 0x1B := by rintro rfl; revert h1; decide
      rw [hb, List.cons_append, strip_cons]
      split
      · obtain ⟨st', w, a1, a2⟩ := strip_rest x ‹TState› (Raw.utf8 s) h4
        rw [a1]
        simp only [List.mem_cons, List.mem_append, not_or]
        exact ⟨fun he => hne he.symm, a2, ih _⟩
      · rw [h3, strip_follow]
        simp only [List.mem_cons, List.mem_append, not_or]
        refine ⟨fun he => hne he.symm, fun hm => ?_, ih _⟩
        exact absurd (h4 _ hm).1 (by decide)
      · obtain ⟨st', w, a1, a2⟩ := strip_rest x ‹TState› (Raw.utf8 s) h4
        rw [a1]
        simp only [List.mem_append, not_or]
        exact ⟨a2, ih _⟩

end Bab.Ansi
