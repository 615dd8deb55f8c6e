import Verif.Proofs.LeakShapeSign
/-!
# The observations of saving and loading keys
-/
namespace Raccoon
open Lk Lk.Shows
attribute [-instance] Monoid.toNPow

/-- After `i` coefficients of a row that starts at `base`. -/
def PackAt (base n i : Nat) (st : List U8 × Nat × U64 × Nat) : Prop := st.1.length = n ∧ st.2.1 = base + 49 * i / 8 ∧ st.2.2.2 = 49 * i % 8

theorem shows_packCoeff {base n i : Nat} (x : Zq) (st : List U8 × Nat × U64 × Nat) (h : PackAt base n i st) :
    (packCoeffL x st).Shows (Shape.putWord (base + 49 * i / 8) (49 * (i + 1) / 8 - 49 * i / 8)) (PackAt base n (i + 1)) := by
  obtain ⟨sc, off, buf, bit⟩ := st
  obtain ⟨h1, h2, h3⟩ := h
  dsimp only at h1 h2 h3
  subst h2 h3
  unfold packCoeffL
  dsimp only
  have hq : Q_BIT_WIDTH = 49 := rfl
  have e : and8 (49 * i % 8 + Q_BIT_WIDTH) / 8 = 49 * (i + 1) / 8 - 49 * i / 8 := by rw [hq]; unfold and8; omega
  have e2 : 49 * i % 8 + Q_BIT_WIDTH - and8 (49 * i % 8 + Q_BIT_WIDTH) = 49 * (i + 1) % 8 := by rw [hq]; unfold and8; omega
  rw [e, e2]
  refine (Lk.Shows.bind lift fun _ => Lk.Shows.bindQ (putLe_shows _ _ _ _) fun b hb => Lk.Shows.bind lift fun _ => Lk.Shows.pure ⟨?_, ?_, rfl⟩).cast (by simp)
  · show b.length = n; rw [hb, h1]
  · show _ + _ + _ = _; omega

theorem shows_packRow (p : Poly) (st : List U8 × Nat) : (packRowL p st).Shows
    (Trace.upto 512 fun i => .ix i :: Shape.putWord (st.2 + 49 * i / 8) (49 * (i + 1) / 8 - 49 * i / 8)) fun r => r.1.length = st.1.length ∧ r.2 = st.2 + 3136 := by
  unfold packRowL
  refine (Lk.Shows.bindQ (u := []) (Q := PackAt st.2 st.1.length 512) (forQ (lo := 0) (hi := 512) (step := 1) (n := 512) (fun i s => PackAt st.2 st.1.length i s)
    (by decide) ⟨rfl, rfl, rfl⟩ fun i s _ hs => ?_) ?_).cast (List.append_nil _)
  · rw [Nat.zero_add, Nat.one_mul]
    exact Lk.Shows.bind (rd _ _) fun x => shows_packCoeff x s hs
  · rintro ⟨sc, off, buf, bit⟩ ⟨h1, h2, -⟩
    exact Lk.Shows.pure ⟨h1, h2⟩

theorem shows_packRows (x : PVec l 1) (sc : List U8) (base : Nat) : (forL 0 l 1 (fun ridx (st : List U8 × Nat) => do
    let row ← rdL x ridx
    let p ← rdL row 0
    packRowL p st) (sc, base)).Shows (Shape.packRows l base) fun r => r.1.length = sc.length := by
  unfold Shape.packRows
  refine fun a ha => ⟨?_, ?_⟩
  all_goals
    have H := forQ (lo := 0) (hi := l) (step := 1) (n := l) (fun r (s : List U8 × Nat) => s.1.length = sc.length ∧ s.2 = base + 3136 * r)
      (t := fun r => [.ix r, .ix 0] ++ Trace.upto 512 fun i => .ix i :: Shape.putWord (base + 3136 * r + 49 * i / 8) (49 * (i + 1) / 8 - 49 * i / 8))
      (by omega) (s := (sc, base)) ⟨rfl, by omega⟩ (body := fun ridx (st : List U8 × Nat) => do
        let row ← rdL x ridx
        let p ← rdL row 0
        packRowL p st) (fun r s _ hs => by
        obtain ⟨h1, h2⟩ := hs
        rw [Nat.zero_add, Nat.one_mul]
        refine (Lk.Shows.bind (rd _ _) fun _ => Lk.Shows.bind (rd _ _) fun p => ?_).cast (t := [.ix r] ++ ([.ix 0] ++ _)) rfl
        intro a ha
        obtain ⟨k1, k2, k3⟩ := shows_packRow p s a ha
        rw [h2] at k1 k3
        exact ⟨k1, by rw [k2, h1], by rw [k3]; omega⟩) a ha
  · exact H.1
  · exact H.2.1

theorem in_compressShare (E : Ext) (fuel κ : Nat) (s : PVec l d) (i : Nat) (st : PVec l 1 × List U8 × Prng) :
    (compressShareL E fuel κ s (1 + 1 * i) st).In (Shape.one [.len (κ / 8), .ix (i * (κ / 8)), .len (κ / 8)] ⬝
      Shape.upto l (fun r => Shape.uniform (κ / 8) ⬝ Shape.one ([.ix r, .ix 0] ++ Trace.polyOp2 ++ [.ix 0, .ix r])) ⬝
      Shape.one (Trace.upto l fun r => [.ix r, .ix (i + 1), .ix r, .ix 0] ++ Trace.polyOp2 ++ [.ix 0, .ix r])) := by
  obtain ⟨x, sc, prng⟩ := st
  have e1 : 1 + 1 * i = i + 1 := by omega
  rw [e1]
  unfold compressShareL
  dsimp only
  have A : ∀ z : List U8, z.length = κ / 8 → ∀ x : PVec l 1, (forL 0 l 1 (fun ridx x => do
      let hdr : List U8 := [0x4b, BitVec.ofNat 8 (i + 1), BitVec.ofNat 8 ridx, 0, 0, 0, 0, 0]
      let _discarded ← Poly.sampleQL E fuel hdr z
      let row ← rdL x ridx
      let p ← rdL row 0
      let p ← Poly.subL p Poly.zero
      let row ← wrL row 0 p
      wrL x ridx row) x).In (Shape.upto l (fun r => Shape.uniform (κ / 8) ⬝ Shape.one ([.ix r, .ix 0] ++ Trace.polyOp2 ++ [.ix 0, .ix r]))) := by
    intro z hz x
    refine Lk.In.for0 fun r x => Lk.In.bind (Poly.in_sampleQ E fuel rfl hz) fun _ => Lk.In.of ?_
    exact (Lk.Shows.bind (rd _ _) fun _ => Lk.Shows.bind (rd _ _) fun _ => Lk.Shows.bind (Poly.shows_subL _ _) fun _ =>
      Lk.Shows.bind (wr _ _ _) fun _ => wr _ _ _).cast (by simp)
  have B : ∀ x : PVec l 1, (forL 0 l 1 (fun ridx x => do
      let srow ← rdL s ridx
      let sp ← rdL srow (i + 1)
      let row ← rdL x ridx
      let p ← rdL row 0
      let p ← Poly.addL p sp
      let row ← wrL row 0 p
      wrL x ridx row) x).Shows (Trace.upto l fun r => [.ix r, .ix (i + 1), .ix r, .ix 0] ++ Trace.polyOp2 ++ [.ix 0, .ix r]) := by
    intro x
    refine for0 fun r x => (Lk.Shows.bind (rd _ _) fun _ => Lk.Shows.bind (rd _ _) fun _ => Lk.Shows.bind (rd _ _) fun _ => Lk.Shows.bind (rd _ _) fun _ =>
      Lk.Shows.bind (Poly.shows_addL _ _) fun _ => Lk.Shows.bind (wr _ _ _) fun _ => wr _ _ _).cast (by simp)
  refine Lk.In.preQ (t := [.len (κ / 8)]) (u := [.ix (i * (κ / 8)), .len (κ / 8)]) (readQ _ _) ?_
  rintro ⟨z, prng⟩ (hz : z.length = κ / 8)
  dsimp only
  rw [hz]
  exact Lk.In.bind (Lk.In.of (Lk.Shows.writeSpan _ _ hz).forget) fun _ => Lk.In.bind (A z hz _) fun _ => Lk.In.map (Lk.In.of (B _))

theorem in_maskCompress (E : Ext) (fuel κ : Nat) (s : PVec l d) (sc : List U8) (prng : Prng) :
    (maskCompressL E fuel κ s sc prng).In (Shape.compress κ l d) := by
  unfold maskCompressL Shape.compress
  refine Lk.In.bind (Lk.In.of (for0 fun r x => (Lk.Shows.bind (rd _ _) fun _ => Lk.Shows.bind (rd _ _) fun _ => Lk.Shows.bind (rd _ _) fun _ =>
      Lk.Shows.bind (wr _ _ _) fun _ => wr _ _ _).cast (by simp))) fun x => Lk.In.bind (Lk.In.forT (n := d - 1) (by omega) fun i st _ =>
      in_compressShare E fuel κ s i st) ?_
  rintro ⟨x, sc, prng⟩
  exact Lk.In.map (Lk.In.of (shows_packRows x sc _).forget)

theorem pkLen_eq (κ k : Nat) : pkeyByteLen κ k 512 42 = κ / 8 + 448 * k ∧ PKey.byteLen κ k 42 = κ / 8 + 448 * k := by
  have : pkeyByteLen κ k 512 42 = κ / 8 + 448 * k := by
    unfold pkeyByteLen
    have hq : Q_BIT_WIDTH = 49 := rfl
    rw [hq]
    omega
  exact ⟨this, this⟩

theorem SKey.in_toBytes (E : Ext) (fuel κ : Nat) {k : Nat} (hk : 0 < k) (sk : SKey k l d) (bytes : List U8) (prng : Prng) :
    (sk.toBytesL E fuel κ 42 bytes prng).In (Shape.save κ k l d sk.pkey.seed.length bytes.length) := by
  unfold SKey.toBytesL Shape.save
  dsimp only
  rw [(pkLen_eq κ k).1]
  simp only [List.append_assoc]
  refine Lk.In.preQ (Lk.Shows.subspan _ _ _) fun b0 hb0 => Lk.In.preQ (shows_publicKey hk _ _ _) fun b1 hb1 => ?_
  intro r hr
  obtain ⟨bs, e1, hr⟩ := bind_val_ok hr
  rw [tr_bind_ok e1]
  have hl := writeSpan_len e1
  rw [hl] at hr ⊢
  obtain ⟨⟨u, _, hu, ⟨v, _, hv, rfl, e2⟩, e3⟩, -⟩ := Lk.In.bind (Lk.In.of (Lk.Shows.subspan bs (κ / 8 + 448 * k) (bytes.length - (κ / 8 + 448 * k))).forget)
    (fun b2 => Lk.In.bind (in_maskCompress E fuel κ sk.s b2 prng) fun r : List U8 × Prng => Lk.In.of
      (Lk.Shows.bind (lift (r := writeSpan bs (κ / 8 + 448 * k) r.1)) fun bytes => pureT (a := (bytes, r.2)))) r hr
  refine ⟨⟨u, v, hu, hv, ?_⟩, trivial⟩
  rw [e2] at e3
  show [] ++ _ = _
  rw [List.nil_append]
  refine e3.trans ?_
  simp

/-! ### Loading -/

theorem shows_pkDecCoeff (k : Nat) (s : PVec k 1 × Nat × U64) : (pkDecCoeffL 42 s).Shows
    [.ix (s.2.1 / 512), .ix 0, .ix (s.2.1 % 512), .ix 0, .ix (s.2.1 / 512)] fun r => r.2.1 = s.2.1 + 1 := by
  obtain ⟨t, i, b⟩ := s
  unfold pkDecCoeffL
  have e1 : i >>> LOG2N = i / 512 := by
    have : LOG2N = 9 := rfl
    rw [this, Nat.shiftRight_eq_div_pow]
  have e2 : i &&& (512 - 1) = i % 512 := by
    have := Nat.and_two_pow_sub_one_eq_mod i 9
    norm_num at this ⊢
    exact this
  dsimp only
  rw [e1, e2]
  exact (Lk.Shows.bind (rd _ _) fun _ => Lk.Shows.bind (rd _ _) fun _ => Lk.Shows.bind (wr _ _ _) fun _ => Lk.Shows.bind (wr _ _ _) fun _ =>
    Lk.Shows.bind (wr _ _ _) fun t => Lk.Shows.bind lift fun b => Lk.Shows.pure (a := (t, i + 1, b)) rfl).cast (by simp)

theorem shows_decodePublicKey (κ k : Nat) (b : List U8) (hb : b.length = κ / 8 + 448 * k) : (decodePublicKeyL 42 (κ / 8) k b).Shows
    ([.ix 0, .len (κ / 8)] ++ Trace.upto (64 * k) fun b => Shape.getWord (κ / 8 + 7 * b) 7 ++ Trace.upto 8 fun c =>
      [.ix ((8 * b + c) / 512), .ix 0, .ix ((8 * b + c) % 512), .ix 0, .ix ((8 * b + c) / 512)]) := by
  unfold decodePublicKeyL
  have m1 : Nat.lcm (Q_BIT_WIDTH - 42) 8 = 56 := by decide
  have m2 : Q_BIT_WIDTH - 42 = 7 := rfl
  rw [m2] at m1
  dsimp only
  rw [m2, m1, hb]
  refine (Lk.Shows.bind (Lk.Shows.subspan _ _ _).forget fun seed => Lk.Shows.bindQ (u := []) (Q := fun s : PVec k 1 × Nat => s.2 = 8 * (64 * k))
    (forQ (lo := κ / 8) (hi := κ / 8 + 448 * k) (step := 7) (n := 64 * k) (fun i (s : PVec k 1 × Nat) => s.2 = 8 * i) (by omega) rfl
      fun i s _ hs => ?_) fun _ _ => pureT).cast (by simp; rfl)
  refine Lk.Shows.cast (t := [.ix (κ / 8 + 7 * i), .len 7] ++ ((.br (decide (7 < 64 / 8)) :: Trace.bytes (min (64 / 8) 7)) ++ ((Trace.upto 8 fun c =>
      [.ix ((8 * i + c) / 512), .ix 0, .ix ((8 * i + c) % 512), .ix 0, .ix ((8 * i + c) / 512)]) ++ []))) ?_ (by simp [Shape.getWord])
  refine Lk.Shows.bindQ (Lk.Shows.subspan _ _ _) fun w hw => Lk.Shows.bind (fromLe 64 hw) fun word => Lk.Shows.bindQ
    (Q := fun s : PVec k 1 × Nat × U64 => s.2.1 = 8 * i + 8)
    (forQ (lo := 0) (hi := 8) (step := 1) (n := 8) (fun c (s : PVec k 1 × Nat × U64) => s.2.1 = 8 * i + c) (by decide) hs fun c s _ hs => ?_) fun r hr => ?_
  · intro a ha
    obtain ⟨h1, h2⟩ := shows_pkDecCoeff k s a ha
    rw [hs] at h1 h2
    exact ⟨h1, h2⟩
  · exact Lk.Shows.pure hr

/-- After `i` coefficients. -/
def UnpackAt (base i : Nat) (st : Nat × U64 × Nat) : Prop := st.1 = base + (49 * i + 7) / 8 ∧ st.2.2 = 8 * ((49 * i + 7) / 8) - 49 * i

theorem shows_unpackCoeff {base i : Nat} (sc : List U8) (st : Nat × U64 × Nat) (h : UnpackAt base i st) :
    (unpackCoeffL sc st).Shows (Shape.getWord (base + (49 * i + 7) / 8) ((49 * (i + 1) + 7) / 8 - (49 * i + 7) / 8)) fun r => UnpackAt base (i + 1) r.2 := by
  obtain ⟨off, buf, bit⟩ := st
  obtain ⟨h1, h2⟩ := h
  dsimp only at h1 h2
  subst h1 h2
  unfold unpackCoeffL
  dsimp only
  have hq : Q_BIT_WIDTH = 49 := rfl
  have e : and8 (Q_BIT_WIDTH - (8 * ((49 * i + 7) / 8) - 49 * i) + 7) / 8 = (49 * (i + 1) + 7) / 8 - (49 * i + 7) / 8 := by rw [hq]; unfold and8; omega
  have e2 : 8 * ((49 * i + 7) / 8) - 49 * i + and8 (Q_BIT_WIDTH - (8 * ((49 * i + 7) / 8) - 49 * i) + 7) - Q_BIT_WIDTH =
      8 * ((49 * (i + 1) + 7) / 8) - 49 * (i + 1) := by rw [hq]; unfold and8; omega
  rw [e, e2]
  refine (Lk.Shows.bindQ (Lk.Shows.subspan _ _ _) fun w hw => Lk.Shows.bind (fromLe 64 hw) fun word => Lk.Shows.bind lift fun _ =>
    Lk.Shows.bind lift fun _ => Lk.Shows.pure ⟨?_, rfl⟩).cast (by simp [Shape.getWord])
  show _ + _ + _ = _; omega

theorem shows_unpackRow (sc : List U8) (off : Nat) : (unpackRowL sc off).Shows
    (Trace.upto 512 fun i => Shape.getWord (off + (49 * i + 7) / 8) ((49 * (i + 1) + 7) / 8 - (49 * i + 7) / 8) ++ [.ix i]) fun r => r.2 = off + 3136 := by
  unfold unpackRowL
  generalize Poly.zero = z
  refine (Lk.Shows.bindQ (u := []) (Q := fun s : Poly × Nat × U64 × Nat => UnpackAt off 512 s.2) (forQ (lo := 0) (hi := 512) (step := 1) (n := 512)
    (fun i (s : Poly × Nat × U64 × Nat) => UnpackAt off i s.2)
    (by decide) ⟨rfl, rfl⟩ fun i s _ hs => ?_) ?_).cast (List.append_nil _)
  · rw [Nat.zero_add, Nat.one_mul]
    refine Lk.Shows.bindQ (shows_unpackCoeff sc s.2 hs) fun r hr => ?_
    exact (Lk.Shows.bind (wr s.1 i r.1) fun p => Lk.Shows.pure (a := (p, r.2)) hr).cast (u := [.ix i]) rfl
  · rintro ⟨p, o, buf, bit⟩ ⟨h1, -⟩
    exact Lk.Shows.pure h1

theorem in_maskDecompress (E : Ext) (fuel κ l d : Nat) (sc : List U8) :
    (maskDecompressL E fuel κ l d sc).In (Shape.one (Shape.unpackRows l ((d - 1) * κ / 8)) ⬝
      Shape.upto (d - 1) fun s => Shape.upto l fun _ => Shape.one [.ix (s * (κ / 8)), .len (κ / 8)] ⬝ Shape.uniform (κ / 8)) := by
  unfold maskDecompressL Shape.unpackRows
  refine Lk.In.bind (Lk.In.of (forQ (lo := 0) (hi := l) (step := 1) (n := l) (fun r (s : PVec l d × Nat) => s.2 = (d - 1) * κ / 8 + 3136 * r)
    (by omega) (by rfl) fun r s _ hs => ?_).forget) ?_
  · rw [Nat.zero_add, Nat.one_mul]
    refine Lk.Shows.bindQ (Q := fun r' => r'.2 = (d - 1) * κ / 8 + 3136 * r + 3136) ?_ fun p hp => ?_
    · rw [hs]
      exact shows_unpackRow sc _
    · exact (Lk.Shows.bind (rd _ _) fun _ => Lk.Shows.bind (wr _ _ _) fun _ => Lk.Shows.bind (wr _ _ _) fun _ =>
        Lk.Shows.pure (by show p.2 = _; rw [hp]; omega)).cast (by simp)
  · rintro ⟨s, -⟩
    refine Lk.In.forT (n := d - 1) (by omega) fun i s _ => Lk.In.for0 fun r s => ?_
    have e : 1 + 1 * i - 1 = i := by omega
    dsimp only
    rw [e]
    exact Lk.In.bindQ (Lk.In.of (Lk.Shows.subspan _ _ _)) fun seed hs => Lk.In.map (Poly.in_sampleQ E fuel rfl hs)

theorem SKey.in_fromBytes (E : Ext) (fuel κ k l d : Nat) (bytes : List U8) :
    (SKey.fromBytesL E fuel κ k l d 42 bytes).In (Shape.load κ k l d bytes.length) := by
  unfold SKey.fromBytesL Shape.load
  dsimp only
  rw [(pkLen_eq κ k).2]
  simp only [List.append_assoc]
  have key : ∀ (X Y Z : List Ev) (a b c e : Ev) (S : Shape) t, (Shape.one ([a, b] ++ (([c, e] ++ X) ++ (Y ++ Z))) ⬝ S) t →
      (Shape.one ([a, b, c, e] ++ (X ++ (Y ++ Z))) ⬝ S) t := by
    intro X Y Z a b c e S t h
    simpa only [List.append_assoc, List.cons_append, List.nil_append] using h
  refine Lk.In.shape (Lk.In.preQ (Lk.Shows.subspan _ _ _) fun b0 hb0 => Lk.In.preQ (shows_decodePublicKey κ k b0 hb0) ?_) (key _ _ _ _ _ _ _ _)
  rintro ⟨seed, t⟩ -
  exact Lk.In.preQ (Lk.Shows.subspan _ _ _) fun b1 _ => Lk.In.map (in_maskDecompress E fuel κ l d b1)
end Raccoon
