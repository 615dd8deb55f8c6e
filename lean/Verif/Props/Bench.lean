import Verif.Model.Bench
import Verif.Props.TestsSigning
import Verif.Props.KeyApi
import Verif.Props.Progress
/-!
# C81: the benchmarks
-/
set_option synthInstance.maxSize 1024
namespace Raccoon
attribute [-instance] Monoid.toNPow

/-- The first `n` bytes of a generator are the first bytes of SHAKE128 on its seed. -/
theorem firstRead (E : Ext) (entropy : List U8) (n : Nat) : ((Prng.new E entropy).read n).1 = xofOut E.shake128 entropy n := by
  show List.map (fun i => E.shake128 entropy (0 + i)) _ = _
  unfold xofOut
  simp only [Nat.zero_add]

theorem secondRead_length (p : Prng) (n : Nat) : (p.read n).1.length = n := by
  show (List.map _ (List.range _)).length = _
  rw [List.length_map, List.length_range]

/-- C81: the key generation benchmark is never undefined; in every round it makes a new key (from that round's entropy) with the seed of the first round, and writes
a file of the right length from which the key is read back. If the samplers finish, it comes to its end. -/
theorem C81_keygen (P : Par) (hP : P = raccoon128 ∨ P = raccoon192 ∨ P = raccoon256) (E : Ext) (fuel d : Nat) (hd : ValidShares d)
    (benchEntropy : List U8) (genEntropy saveEntropy : Nat → List U8) (n : Nat) :
    Bench.keygen P E fuel d benchEntropy genEntropy saveEntropy n ≠ .ub ∧
    (∀ rs, Bench.keygen P E fuel d benchEntropy genEntropy saveEntropy n = .ok rs → rs.length = n ∧ ∀ i (hi : i < rs.length),
      Api.generate P (utTableOf P) E fuel d (genEntropy i) (xofOut E.shake128 benchEntropy (P.κ / 8)) = .ok rs[i].1 ∧
      rs[i].2.length = SKey.byteLen P.κ P.k P.l d P.νt ∧
      ∃ sk, Api.skFromBytes P E fuel d rs[i].2 = .ok sk ∧ Api.getPkey P sk = Api.getPkey P rs[i].1 ∧ PVec.val sk.s = PVec.val rs[i].1.s) ∧
    (SamplersFinish P E fuel → ∃ rs, Bench.keygen P E fuel d benchEntropy genEntropy saveEntropy n = .ok rs) := by
  have hseed : (xofOut E.shake128 benchEntropy (P.κ / 8)).length = P.κ / 8 := xofOut_length ..
  let J : List (SKey P.k P.l d × List U8) → Prop := fun rs => ∀ i (hi : i < rs.length),
      Api.generate P (utTableOf P) E fuel d (genEntropy i) (xofOut E.shake128 benchEntropy (P.κ / 8)) = .ok rs[i].1 ∧
      rs[i].2.length = SKey.byteLen P.κ P.k P.l d P.νt ∧
      ∃ sk, Api.skFromBytes P E fuel d rs[i].2 = .ok sk ∧ Api.getPkey P sk = Api.getPkey P rs[i].1 ∧ PVec.val sk.s = PVec.val rs[i].1.s
  have step : ∀ i (s : List (SKey P.k P.l d × List U8) × List U8), s.1.length = i ∧ J s.1 ∧ s.2.length = SKey.byteLen P.κ P.k P.l d P.νt →
      Res.Out (do
        let skey ← Api.generate P (utTableOf P) E fuel d (genEntropy i) (xofOut E.shake128 benchEntropy (P.κ / 8))
        let skBytes ← Api.skAsBytes P E fuel skey (saveEntropy i) s.2
        Res.ok (s.1 ++ [(skey, skBytes)], skBytes))
        (fun s' => s'.1.length = i + 1 ∧ J s'.1 ∧ s'.2.length = SKey.byteLen P.κ P.k P.l d P.νt) False := by
    rintro i ⟨rs, buf⟩ ⟨i1, i2, i3⟩
    replace i1 : rs.length = i := i1
    replace i2 : J rs := i2
    replace i3 : buf.length = SKey.byteLen P.κ P.k P.l d P.νt := i3
    refine Res.Out.bind (P := fun _ => True) ⟨fun _ _ => trivial, fun e => absurd e (C37_key_generation P hP E fuel d hd _ _).1⟩ ?_
    intro sk0 e0 _
    have wf0 := C37_wellformed P hP E fuel d hd _ _ hseed sk0 e0
    obtain ⟨k1, k2⟩ := C25_api P hP E fuel fuel d hd sk0 wf0 (saveEntropy i) buf i3
    refine Res.Out.bind (P := fun b => b.length = SKey.byteLen P.κ P.k P.l d P.νt ∧ ∃ sk, Api.skFromBytes P E fuel d b = .ok sk ∧
      Api.getPkey P sk = Api.getPkey P sk0 ∧ PVec.val sk.s = PVec.val sk0.s) ⟨fun b eb => ?_, fun e => absurd e k1⟩ ?_
    · obtain ⟨l1, -, l3⟩ := k2 b eb
      obtain ⟨-, w2, -, -, -, -, -, -, -, h8, -⟩ := par_bounds P hP
      have hrt := C25_round_trip E fuel fuel P.κ P.k P.l d h8 hd.pos (Nat.le_refl _) sk0 wf0.pkey.seed wf0.pkey.t wf0.s buf (by rw [i3, w2]) (Prng.new E (saveEntropy i))
      have e := eb
      unfold Api.skAsBytes at e
      rw [w2] at e
      obtain ⟨⟨b', p'⟩, e1, e2⟩ := Res.bind_eq_ok.1 e
      obtain rfl : b' = b := Res.ok.inj e2
      obtain ⟨-, sk, e3, -⟩ := hrt.2 b' p' e1
      have e4 : Api.skFromBytes P E fuel d b' = .ok sk := by
        unfold Api.skFromBytes
        rw [w2]
        exact e3
      obtain ⟨m1, -, m3, -⟩ := l3 sk e4
      exact ⟨l1, sk, e4, m1, m3⟩
    · rintro b - ⟨b1, b2⟩
      refine Res.Out.ok ⟨?_, ?_, b1⟩
      · show (rs ++ [(sk0, b)]).length = _
        rw [List.length_append, i1]; rfl
      · intro j hj
        replace hj : j < (rs ++ [(sk0, b)]).length := hj
        show _ = Res.ok (rs ++ [(sk0, b)])[j].1 ∧ (rs ++ [(sk0, b)])[j].2.length = _ ∧ ∃ sk, Api.skFromBytes P E fuel d (rs ++ [(sk0, b)])[j].2 = .ok sk ∧
          Api.getPkey P sk = Api.getPkey P (rs ++ [(sk0, b)])[j].1 ∧ PVec.val sk.s = PVec.val (rs ++ [(sk0, b)])[j].1.s
        rcases Nat.lt_or_ge j rs.length with h | h
        · rw [List.getElem_append_left h]; exact i2 j h
        · rw [List.length_append, List.length_singleton] at hj
          obtain rfl : j = i := by omega
          rw [List.getElem_append_right h]
          simp only [i1, Nat.sub_self, List.getElem_cons_zero]
          exact ⟨e0, b1, b2⟩
  have loop := forLoop_Out1 (lo := 0) (hi := n) (Nat.zero_le _) (s := ([], List.replicate (SKey.byteLen P.κ P.k P.l d P.νt) 0))
    (fun i (s : List (SKey P.k P.l d × List U8) × List U8) => s.1.length = i ∧ J s.1 ∧ s.2.length = SKey.byteLen P.κ P.k P.l d P.νt) False
    ⟨rfl, fun i hi => absurd hi (Nat.not_lt_zero _), List.length_replicate⟩ fun i s _ _ hI => step i s hI
  have main : (Bench.keygen P E fuel d benchEntropy genEntropy saveEntropy n).Out (fun rs => rs.length = n ∧ J rs) False := by
    unfold Bench.keygen
    simp only [firstRead]
    exact loop.bind fun r _ hr => Res.Out.ok ⟨hr.1, hr.2.1⟩
  refine ⟨fun e => main.2 e, main.1, fun hf => ?_⟩
  have tot : ∀ m i (s : List (SKey P.k P.l d × List U8) × List U8), i + m = n → s.2.length = SKey.byteLen P.κ P.k P.l d P.νt →
      ∃ s', forLoop i n 1 (fun i (s : List (SKey P.k P.l d × List U8) × List U8) => do
        let skey ← Api.generate P (utTableOf P) E fuel d (genEntropy i) (xofOut E.shake128 benchEntropy (P.κ / 8))
        let skBytes ← Api.skAsBytes P E fuel skey (saveEntropy i) s.2
        Res.ok (s.1 ++ [(skey, skBytes)], skBytes)) s = .ok s' := by
    intro m
    induction m with
    | zero => intro i s hi _; exact ⟨s, forLoop_nil (by omega) (by omega) _ s⟩
    | succ m ih =>
      intro i s hi hs
      obtain ⟨sk0, e0⟩ := C52_generate P hP E fuel d hd hf (genEntropy i) _ hseed
      have wf0 := C37_wellformed P hP E fuel d hd _ _ hseed sk0 e0
      obtain ⟨b, -, e1, -⟩ := C52_reload P hP E fuel d hd hf sk0 wf0 (saveEntropy i) s.2 hs
      rw [forLoop_cons (by omega) (by omega), e0, Res.ok_bind, e1, Res.ok_bind, Res.ok_bind]
      exact ih _ _ (by omega) ((C25_api P hP E fuel fuel d hd sk0 wf0 (saveEntropy i) s.2 hs).2 b e1).1
  unfold Bench.keygen
  simp only [firstRead]
  obtain ⟨s', e⟩ := tot n 0 ([], List.replicate (SKey.byteLen P.κ P.k P.l d P.νt) 0) (by omega) List.length_replicate
  exact ⟨s'.1, by rw [e, Res.ok_bind]⟩

/-- C81: in the signing benchmark every round makes, from that round's entropy, a signature of 32 bytes of message that the public key accepts; it is undefined only
if one of its calls of `sign` is. -/
theorem C81_sign (P : Par) (hP : P = raccoon128 ∨ P = raccoon192 ∨ P = raccoon256) (E : Ext) (fuel d : Nat) (hd : ValidShares d)
    (benchEntropy genEntropy : List U8) (signEntropy : Nat → List U8) (n : Nat) :
    (∀ r, Bench.sign P E fuel d benchEntropy genEntropy signEntropy n = .ok r → r.msg.length = 32 ∧ r.sigs.length = n ∧
      ∃ sk, Api.generate P (utTableOf P) E fuel d genEntropy (xofOut E.shake128 benchEntropy (P.κ / 8)) = .ok sk ∧ r.pkey = Api.getPkey P sk ∧
        ∀ i (hi : i < r.sigs.length), r.sigs[i].length = P.sigLen ∧ (∃ buf, Api.sign P E fuel d sk (signEntropy i) r.msg buf = .ok r.sigs[i]) ∧
          Api.verify P E fuel r.pkey r.msg r.sigs[i] = .ok true) ∧
    (Bench.sign P E fuel d benchEntropy genEntropy signEntropy n = .ub → ∃ sk msg buf, ∃ i < n,
      Api.generate P (utTableOf P) E fuel d genEntropy (xofOut E.shake128 benchEntropy (P.κ / 8)) = .ok sk ∧
      msg.length = 32 ∧ buf.length = P.sigLen ∧ Api.sign P E fuel d sk (signEntropy i) msg buf = .ub) := by
  have hseed : (xofOut E.shake128 benchEntropy (P.κ / 8)).length = P.κ / 8 := xofOut_length ..
  suffices main : (Bench.sign P E fuel d benchEntropy genEntropy signEntropy n).Out (fun r => r.msg.length = 32 ∧ r.sigs.length = n ∧
      ∃ sk, Api.generate P (utTableOf P) E fuel d genEntropy (xofOut E.shake128 benchEntropy (P.κ / 8)) = .ok sk ∧ r.pkey = Api.getPkey P sk ∧
        ∀ i (hi : i < r.sigs.length), r.sigs[i].length = P.sigLen ∧ (∃ buf, Api.sign P E fuel d sk (signEntropy i) r.msg buf = .ok r.sigs[i]) ∧
          Api.verify P E fuel r.pkey r.msg r.sigs[i] = .ok true)
      (∃ sk msg buf, ∃ i < n, Api.generate P (utTableOf P) E fuel d genEntropy (xofOut E.shake128 benchEntropy (P.κ / 8)) = .ok sk ∧
        msg.length = 32 ∧ buf.length = P.sigLen ∧ Api.sign P E fuel d sk (signEntropy i) msg buf = .ub) from main
  unfold Bench.sign
  simp only [firstRead]
  have hml := secondRead_length ((Prng.new E benchEntropy).read (P.κ / 8)).2 32
  generalize (((Prng.new E benchEntropy).read (P.κ / 8)).2.read 32).1 = msg at *
  refine Res.Out.bind (P := fun _ => True) ⟨fun _ _ => trivial, fun e => absurd e (C37_key_generation P hP E fuel d hd genEntropy _).1⟩ ?_
  intro sk e0 _
  have wf := C37_wellformed P hP E fuel d hd genEntropy _ hseed sk e0
  let J : List (List U8) → Prop := fun rs => ∀ i (hi : i < rs.length), rs[i].length = P.sigLen ∧
    (∃ buf, Api.sign P E fuel d sk (signEntropy i) msg buf = .ok rs[i]) ∧ Api.verify P E fuel (Api.getPkey P sk) msg rs[i] = .ok true
  refine Res.Out.bind (P := fun s : List (List U8) × List U8 => s.1.length = n ∧ J s.1 ∧ s.2.length = P.sigLen) ?_ fun r _ hr => Res.Out.ok ⟨hml, hr.1, sk, e0, rfl, hr.2.1⟩
  refine forLoop_Out1 (lo := 0) (hi := n) (Nat.zero_le _) (fun i (s : List (List U8) × List U8) => s.1.length = i ∧ J s.1 ∧ s.2.length = P.sigLen) _
    ⟨rfl, fun i hi => absurd hi (Nat.not_lt_zero _), List.length_replicate⟩ ?_
  rintro i ⟨rs, buf⟩ - hi ⟨i1, i2, i3⟩
  replace i1 : rs.length = i := i1
  replace i2 : J rs := i2
  replace i3 : buf.length = P.sigLen := i3
  refine Res.Out.bind (P := fun sig => sig.length = P.sigLen ∧ (∃ buf, Api.sign P E fuel d sk (signEntropy i) msg buf = .ok sig) ∧
    Api.verify P E fuel (Api.getPkey P sk) msg sig = .ok true) ⟨fun sig e => ⟨?_, ⟨buf, e⟩, ?_⟩, fun e => ⟨sk, msg, buf, i, hi, e0, hml, i3, e⟩⟩ ?_
  · rw [← i3]
    exact (C35_only_acceptable P hP E fuel d hd sk wf (signEntropy i) msg buf sig e).1
  · exact C33_sign_verify P hP E fuel fuel d (Nat.le_refl _) hd sk wf (signEntropy i) msg buf sig e
  · rintro sig - ⟨g1, g2⟩
    refine Res.Out.ok ⟨?_, ?_, g1⟩
    · show (rs ++ [sig]).length = _
      rw [List.length_append, i1]; rfl
    · show J (rs ++ [sig])
      intro j hj
      rcases Nat.lt_or_ge j rs.length with h | h
      · simp only [List.getElem_append_left h]; exact i2 j h
      · rw [List.length_append, List.length_singleton] at hj
        obtain rfl : j = i := by omega
        simp only [List.getElem_append_right h, i1, Nat.sub_self, List.getElem_cons_zero]
        exact ⟨g1, g2⟩

/-- C81: the verification benchmark measures accepting runs: whenever it comes to its end, after any number of rounds, every call has accepted; it is undefined only
if its one call of `sign` is. -/
theorem C81_verify (P : Par) (hP : P = raccoon128 ∨ P = raccoon192 ∨ P = raccoon256) (E : Ext) (fuel d : Nat) (hd : ValidShares d) (benchEntropy genEntropy signEntropy : List U8) (n : Nat) :
    (∀ r, Bench.verify P E fuel d benchEntropy genEntropy signEntropy n = .ok r → r = true) ∧
    (Bench.verify P E fuel d benchEntropy genEntropy signEntropy n = .ub → ∃ sk msg,
      Api.generate P (utTableOf P) E fuel d genEntropy (xofOut E.shake128 benchEntropy (P.κ / 8)) = .ok sk ∧
      msg.length = 32 ∧ Api.sign P E fuel d sk signEntropy msg (List.replicate P.sigLen 0) = .ub) := by
  have hseed : (xofOut E.shake128 benchEntropy (P.κ / 8)).length = P.κ / 8 := xofOut_length ..
  suffices main : (Bench.verify P E fuel d benchEntropy genEntropy signEntropy n).Out (fun r => r = true) (∃ sk msg,
      Api.generate P (utTableOf P) E fuel d genEntropy (xofOut E.shake128 benchEntropy (P.κ / 8)) = .ok sk ∧
      msg.length = 32 ∧ Api.sign P E fuel d sk signEntropy msg (List.replicate P.sigLen 0) = .ub) from main
  unfold Bench.verify
  simp only [firstRead]
  have hml := secondRead_length ((Prng.new E benchEntropy).read (P.κ / 8)).2 32
  generalize (((Prng.new E benchEntropy).read (P.κ / 8)).2.read 32).1 = msg at *
  refine Res.Out.bind (P := fun _ => True) ⟨fun _ _ => trivial, fun e => absurd e (C37_key_generation P hP E fuel d hd genEntropy _).1⟩ ?_
  intro sk e0 _
  have wf := C37_wellformed P hP E fuel d hd genEntropy _ hseed sk e0
  refine Res.Out.bind (P := fun _ => True) ⟨fun _ _ => trivial, fun e => ⟨sk, msg, e0, hml, e⟩⟩ ?_
  intro sig esig _
  have hv := C33_sign_verify P hP E fuel fuel d (Nat.le_refl _) hd sk wf signEntropy msg _ sig esig
  refine forLoop_Out1 (lo := 0) (hi := n) (Nat.zero_le _) (fun _ (s : Bool) => s = true) _ rfl ?_
  rintro i s - - rfl
  rw [hv, Res.ok_bind]
  exact Res.Out.ok rfl

/-- The instances in the benchmark programs: `d` is 1, 2, 4, 8, 16 or 32; and 1 in the verification benchmark. -/
example : ∀ d ∈ [1, 2, 4, 8, 16, 32], ValidShares d := by
  intro d hd
  simp only [List.mem_cons, List.not_mem_nil, or_false] at hd
  rcases hd with rfl | rfl | rfl | rfl | rfl | rfl
  exacts [⟨0, by omega, rfl⟩, ⟨1, by omega, rfl⟩, ⟨2, by omega, rfl⟩, ⟨3, by omega, rfl⟩, ⟨4, by omega, rfl⟩, ⟨5, by omega, rfl⟩]

/-- Non-vacuity: with the toy external functions and two shares all three benchmarks come to their end, whatever the number of rounds. -/
example (a b e : List U8) (c f : Nat → List U8) (n : Nat) : (∃ rs, Bench.keygen raccoon128 demoE 512 2 a c f n = .ok rs) ∧
    (∃ r, Bench.sign raccoon128 demoE 512 2 a b c n = .ok r) ∧ ∃ v, Bench.verify raccoon128 demoE 512 2 a b e n = .ok v := by
  have hP : raccoon128 = raccoon128 ∨ raccoon128 = raccoon192 ∨ raccoon128 = raccoon256 := Or.inl rfl
  have hseed : (xofOut demoE.shake128 a (raccoon128.κ / 8)).length = 16 := xofOut_length ..
  refine ⟨(C81_keygen raccoon128 hP demoE 512 2 demo_d a c f n).2.2 demo_finish, ?_, ?_⟩
  · unfold Bench.sign
    simp only [firstRead]
    generalize (((Prng.new demoE a).read (raccoon128.κ / 8)).2.read 32).1 = msg
    obtain ⟨sk, h0⟩ := C52_generate raccoon128 hP demoE 512 2 demo_d demo_finish b _ hseed
    have wf := C37_wellformed raccoon128 hP demoE 512 2 demo_d _ _ hseed sk h0
    rw [h0, Res.ok_bind]
    have tot : ∀ m i (s : List (List U8) × List U8), i + m = n → s.2.length = 11524 →
        ∃ s', forLoop i n 1 (fun i (s : List (List U8) × List U8) => do
          let sig ← Api.sign raccoon128 demoE 512 2 sk (c i) msg s.2
          Res.ok (s.1 ++ [sig], sig)) s = .ok s' := by
      intro m
      induction m with
      | zero => intro i s hi _; exact ⟨s, forLoop_nil (by omega) (by omega) _ s⟩
      | succ m ih =>
        intro i s hi hs
        obtain ⟨sig, e⟩ := demo_sign b _ hseed sk sk h0 .refl (c i) msg s.2 hs
        rw [forLoop_cons (by omega) (by omega), e, Res.ok_bind, Res.ok_bind]
        exact ih _ _ (by omega) ((C35_only_acceptable raccoon128 hP demoE 512 2 demo_d sk wf (c i) msg s.2 sig e).1.trans hs)
    obtain ⟨s', e⟩ := tot n 0 ([], List.replicate 11524 0) (by omega) List.length_replicate
    exact ⟨_, by rw [show raccoon128.sigLen = 11524 from rfl, e, Res.ok_bind]⟩
  · unfold Bench.verify
    simp only [firstRead]
    generalize (((Prng.new demoE a).read (raccoon128.κ / 8)).2.read 32).1 = msg
    obtain ⟨sk, h0⟩ := C52_generate raccoon128 hP demoE 512 2 demo_d demo_finish b _ hseed
    have wf := C37_wellformed raccoon128 hP demoE 512 2 demo_d _ _ hseed sk h0
    obtain ⟨sig, e⟩ := demo_sign b _ hseed sk sk h0 .refl e msg (List.replicate 11524 0) List.length_replicate
    rw [h0, Res.ok_bind, show raccoon128.sigLen = 11524 from rfl, e, Res.ok_bind]
    have hv := C33_sign_verify raccoon128 hP demoE 512 512 2 (Nat.le_refl _) demo_d sk wf _ msg _ sig e
    have tot : ∀ m i (s : Bool), i + m = n → ∃ s', forLoop i n 1 (fun _ isVerified => do
        let v ← Api.verify raccoon128 demoE 512 (Api.getPkey raccoon128 sk) msg sig
        Res.ok (isVerified && v)) s = .ok s' := by
      intro m
      induction m with
      | zero => intro i s hi; exact ⟨s, forLoop_nil (by omega) (by omega) _ s⟩
      | succ m ih =>
        intro i s hi
        rw [forLoop_cons (by omega) (by omega)]
        have h1 : (do
          let v ← Api.verify raccoon128 demoE 512 (Api.getPkey raccoon128 sk) msg sig
          Res.ok (s && v)) = Res.ok (s && true) := by rw [hv, Res.ok_bind]
        rw [h1, Res.ok_bind]
        exact ih (i + 1) _ (by omega)
    exact tot n 0 true (by omega)

end Raccoon
