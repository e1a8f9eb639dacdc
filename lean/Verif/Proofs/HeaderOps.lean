import Verif.Proofs.Torn
import Verif.Proofs.Frame
import Verif.Proofs.Sched
import Verif.Spec.HeaderOps
import Verif.Model.Tools.HeaderOps
/-!
# Lemmas about header dump, strip and restore
-/
namespace Volaris
open Spec

theorem reopen_run {ε : Type} (h : Nat) (w : World) : (reopen h : Prog ε Unit) w = (.ok (), w.setPos h 0) := rfl

theorem tag_eq (v : HeaderVersion) (a : Algorithm) (m : Mode) :
    ({ version := v, algorithm := a, mode := m } : HeaderType).tag = versionCode v ++ algorithmCode a ++ modeCode m := by
  cases v <;> cases a <;> cases m <;> rfl

theorem Spec.WrittenHeader.reads {v : HeaderVersion} {H : Bytes} (h : WrittenHeader v H) :
    ∃ hd aad, (∀ tail, IsHeader (H ++ tail) hd aad) ∧ hd.headerType.version = v ∧ hd.serialize = .ok H ∧
      H.length = headerSize v := by
  cases h with
  | v3 a m nonce salt hn hs =>
    have e : layoutV3 a m nonce salt = bytesV3 ⟨.v3, a, m⟩ nonce salt := by
      simp only [layoutV3, bytesV3, tag_eq]; rfl
    rw [e]
    refine ⟨_, _, bytesV3_isHeader (t := ⟨.v3, a, m⟩) rfl hn hs, rfl, ?_, bytesV3_length hn hs⟩
    exact serialize_v3 rfl rfl
  | v4 a m nonce salt key keyNonce hn hs hk hkn =>
    let k : Keyslot := ⟨.blake3Balloon 4, key, keyNonce, salt⟩
    have e : layoutV4 a m nonce salt key keyNonce = bytesV4 ⟨.v4, a, m⟩ nonce salt k := by
      simp only [layoutV4, bytesV4, tag_eq]; rfl
    rw [e]
    refine ⟨_, _, bytesV4_isHeader (t := ⟨.v4, a, m⟩) (k := k) rfl hn hs hk hkn, rfl, ?_,
      bytesV4_length (k := k) (t := ⟨.v4, a, m⟩) hn hs hk hkn⟩
    exact serialize_v4 rfl rfl
  | v5 a m nonce ks hn hl hs =>
    rw [layoutV5_eq hs]
    refine ⟨_, _, bytesV5_isHeader (t := ⟨.v5, a, m⟩) rfl hn hl hs, rfl, ?_,
      bytesV5_length (t := ⟨.v5, a, m⟩) hn hl hs⟩
    exact serialize_v5 rfl rfl hl

theorem Spec.IsHeader.rewritten {bs : Bytes} {hd : Header} {aad : Bytes} (hi : IsHeader bs hd aad)
    (h1 : hd.headerType.version ≠ .v1) (h2 : hd.headerType.version ≠ .v2) :
    ∃ H, WrittenHeader hd.headerType.version H ∧ hd.serialize = .ok H ∧ ∃ aad', IsHeader H hd aad' := by
  have hsz := isHeader_sized hi
  have hf := hi.fields
  have hl := hi.size
  rcases hd with ⟨⟨v, a, m⟩, nonce, salt, ks⟩
  cases v with
  | v1 => exact absurd rfl h1
  | v2 => exact absurd rfl h2
  | v3 =>
    simp only [headerSize] at hf hl
    obtain ⟨rfl, rfl, hn⟩ := hf
    have hs : (slice bs 6 16).length = 16 := slice_length _ _ _ (by omega)
    have e : layoutV3 a m nonce (slice bs 6 16) = bytesV3 ⟨.v3, a, m⟩ nonce (slice bs 6 16) := by
      simp only [layoutV3, bytesV3, tag_eq]; rfl
    refine ⟨layoutV3 a m nonce (slice bs 6 16), .v3 a m nonce _ hsz.1 hs, ?_, ?_⟩
    · rw [e]; exact serialize_v3 rfl rfl
    · have := bytesV3_isHeader (t := ⟨.v3, a, m⟩) rfl hsz.1 hs []
      rw [List.append_nil] at this
      rw [e]; exact ⟨_, this⟩
  | v4 =>
    simp only [headerSize] at hf hl
    obtain ⟨rfl, rfl, hn⟩ := hf
    have hs : (slice bs 6 16).length = 16 := slice_length _ _ _ (by omega)
    obtain ⟨_, hso⟩ := hsz.2 _ rfl
    have hso := hso _ (List.mem_singleton.2 rfl)
    refine ⟨_, .v4 a m nonce (slice bs 6 16) (slice bs 48 48) (slice bs 96 (nonceLength a .memoryMode)) hsz.1 hs hso.key hso.nonce, ?_, ?_⟩
    · have := serialize_v4 (h := ⟨⟨.v4, a, m⟩, nonce, some (slice bs 6 16), some [⟨.blake3Balloon 4, slice bs 48 48, slice bs 96 (nonceLength a .memoryMode), slice bs 6 16⟩]⟩) rfl rfl
      rw [this]
      simp only [layoutV4, bytesV4, tag_eq, Option.getD_some]; rfl
    · have := bytesV4_isHeader (t := ⟨.v4, a, m⟩) (k := ⟨.blake3Balloon 4, slice bs 48 48, slice bs 96 (nonceLength a .memoryMode), slice bs 6 16⟩) rfl hsz.1 hs hso.key hso.nonce []
      rw [List.append_nil] at this
      have e : layoutV4 a m nonce (slice bs 6 16) (slice bs 48 48) (slice bs 96 (nonceLength a .memoryMode))
        = bytesV4 ⟨.v4, a, m⟩ nonce (slice bs 6 16) ⟨.blake3Balloon 4, slice bs 48 48, slice bs 96 (nonceLength a .memoryMode), slice bs 6 16⟩ := by
        simp only [layoutV4, bytesV4, tag_eq]; rfl
      rw [e]; exact ⟨_, this⟩
  | v5 =>
    simp only at hf
    obtain ⟨rfl, ⟨ks', rfl, _⟩, hn⟩ := hf
    obtain ⟨hl4, hso⟩ := hsz.2 _ rfl
    refine ⟨_, .v5 a m nonce ks' hsz.1 hl4 hso, ?_, ?_⟩
    · rw [layoutV5_eq hso]; exact serialize_v5 rfl rfl hl4
    · rw [layoutV5_eq hso]
      have := bytesV5_isHeader (t := ⟨.v5, a, m⟩) rfl hsz.1 hl4 hso []
      rw [List.append_nil] at this
      exact ⟨_, this⟩

theorem headerWrite_cases {hd : Header} {H : Bytes} (hH : hd.serialize = .ok H) (h : Nat) (w : World) :
    (∃ k w', hd.write h w = (.ok (), w') ∧ w'.core = (w.put h (H.take k)).core ∧ (NoShort w.sched → w'.core = (w.put h H).core)) ∨
    (∃ e w', hd.write h w = (.err e, w') ∧ w'.core = w.core) := by
  rcases write_spec h H w with ⟨k, w', he, hc⟩ | ⟨e, w', he, hc⟩
  · left
    refine ⟨k, w', ?_, hc, fun hs => write_noShort hs he⟩
    simp only [Header.write]
    rw [Prog.bind_ok (w' := w) (a := H) (by rw [hH]; rfl), Prog.bind_ok (Prog.mapErr_ok he)]
    rfl
  · right
    refine ⟨.io e, w', ?_, hc⟩
    simp only [Header.write]
    rw [Prog.bind_ok (w' := w) (a := H) (by rw [hH]; rfl), Prog.bind_err (Prog.mapErr_err he)]

theorem headerWrite_nil {hd : Header} {H : Bytes} (hH : hd.serialize = .ok H) (h : Nat) {w : World} (hs : w.sched = []) :
    hd.write h w = (.ok (), w.put h H) := by
  simp only [Header.write]
  rw [Prog.bind_ok (w' := w) (a := H) (by rw [hH]; rfl), Prog.bind_ok (Prog.mapErr_ok (write_nil hs h H))]
  rfl

theorem World.rest_of_pos_zero {w : World} {h : Nat} (hp : (w.fd h).pos = 0) : w.rest h = w.data h := by
  simp [World.rest, hp]

theorem allZero_iff (bs : Bytes) (n : Nat) : ((bs ++ zeros n).all (· == 0)) = true ↔ ∀ b ∈ bs, b = 0 := by
  simp only [zeros, List.all_eq_true, List.mem_append, beq_iff_eq]
  constructor
  · intro h b hb; exact h b (.inl hb)
  · rintro h b (hb | hb)
    · exact h b hb
    · exact (List.mem_replicate.1 hb).2

namespace HeaderOps

theorem dump_cases (r wr : Nat) (w : World) :
    (∃ hd aad H k w', dump r wr w = (.ok (), w') ∧ IsHeader (w.rest r) hd aad ∧ hd.serialize = .ok H ∧
      w'.core = ((w.adv r (headerSize hd.headerType.version)).put wr (H.take k)).core ∧
      (NoShort w.sched → w'.core = ((w.adv r (headerSize hd.headerType.version)).put wr H).core)) ∨
    (∃ e w', dump r wr w = (.err e, w') ∧ Touches [r] [] w w') := by
  unfold dump
  have hS := Shrinks.deserialize r w
  rcases deserialize_cases r w with ⟨hd, aad, w1, he, hi, hc⟩ | ⟨e, w1, p, he, hc⟩
  · rw [Prog.bind_ok (Prog.mapErr_ok he)]
    have ht1 : Touches [r] [] w w1 := (Touches.adv (by simp)).core_right hc
    cases hH : hd.serialize with
    | ok H =>
      rcases headerWrite_cases hH wr w1 with ⟨k, w', hw, hcw, hns⟩ | ⟨e, w', hw, hcw⟩
      · left
        refine ⟨hd, aad, H, k, w', Prog.mapErr_ok hw, hi, hH, ?_, ?_⟩
        · rw [hcw]; exact World.put_core_congr _ _ hc
        · intro hsn
          rw [hns (hsn.of_suffix (by rw [he] at hS; exact hS))]
          exact World.put_core_congr _ _ hc
      · right
        exact ⟨_, w', Prog.mapErr_err hw, ht1.core_right hcw⟩
    | err e =>
      right
      refine ⟨.write, w1, ?_, ht1⟩
      refine Prog.mapErr_err (e := e) ?_
      simp only [Header.write]
      exact Prog.bind_err (by rw [hH]; rfl)
    | abort a =>
      exfalso
      have hver : hd.headerType.version = .v1 ∨ hd.headerType.version = .v2 ∨
          (hd.headerType.version ≠ .v1 ∧ hd.headerType.version ≠ .v2) := by
        cases hd.headerType.version <;> simp
      rcases hver with hv | hv | ⟨h1, h2⟩
      · simp [Header.serialize, hv] at hH
      · simp [Header.serialize, hv] at hH
      · obtain ⟨H, _, h3, _⟩ := hi.rewritten h1 h2
        rw [hH] at h3; simp at h3
  · right
    refine ⟨_, w1, Prog.bind_err (Prog.mapErr_err he), (Touches.setPos (by simp)).core_right hc⟩

theorem dump_nil {r wr : Nat} {w : World} (hs : w.sched = []) {hd : Header} {aad H : Bytes} (hi : IsHeader (w.rest r) hd aad)
    (hH : hd.serialize = .ok H) :
    dump r wr w = (.ok (), (w.adv r (headerSize hd.headerType.version)).put wr H) := by
  unfold dump
  rw [Prog.bind_ok (Prog.mapErr_ok (deserialize_isHeader hs hi))]
  exact Prog.mapErr_ok (headerWrite_nil hH wr (by simpa using hs))

theorem strip_cases (h : Nat) (w : World) :
    (∃ hd aad w', strip h w = (.ok (), w') ∧ IsHeader (w.rest h) hd aad ∧
      w'.core = ((w.setPos h 0).put h (zeros (headerSize hd.headerType.version))).core) ∨
    (∃ hd aad k w', strip h w = (.err .write, w') ∧ IsHeader (w.rest h) hd aad ∧ k ≤ headerSize hd.headerType.version ∧
      w'.core = ((w.setPos h 0).put h (zeros k)).core) ∨
    (∃ e w', strip h w = (.err e, w') ∧ (e = .invalidFile ∨ e = .rewind) ∧ Touches [h] [] w w') := by
  unfold strip
  rcases deserialize_cases h w with ⟨hd, aad, w1, he, hi, hc⟩ | ⟨e, w1, p, he, hc⟩
  · rw [Prog.bind_ok (Prog.mapErr_ok he)]
    rcases rewind_spec h w1 with ⟨w2, he2, hc2⟩ | ⟨e, w2, he2, hc2⟩
    · simp only
      rw [Prog.bind_ok (Prog.mapErr_ok he2)]
      have hc12 : w2.core = (w.setPos h 0).core := by
        rw [hc2, World.setPos_core_congr h 0 hc]
        simp [World.adv]
      have hsz : hd.getSize = headerSize hd.headerType.version := size_eq _
      rcases writeAll_spec h (zeros hd.getSize) w2 with ⟨w3, he3, hc3⟩ | ⟨e, k, w3, hk, he3, hc3⟩
      · left
        refine ⟨hd, aad, w3, Prog.mapErr_ok he3, hi, ?_⟩
        rw [hc3, hsz]; exact World.put_core_congr _ _ hc12
      · right; left
        rw [zeros_length, hsz] at hk
        refine ⟨hd, aad, k, w3, Prog.mapErr_err he3, hi, hk, ?_⟩
        rw [hc3, hsz, zeros_take, Nat.min_eq_left hk]; exact World.put_core_congr _ _ hc12
    · right; right
      refine ⟨.rewind, w2, Prog.bind_err (Prog.mapErr_err he2), .inr rfl, ?_⟩
      exact (((Touches.adv (by simp)).core_right hc)).core_right hc2
  · right; right
    exact ⟨_, w1, Prog.bind_err (Prog.mapErr_err he), .inl rfl, (Touches.setPos (by simp)).core_right hc⟩

theorem strip_nil {h : Nat} {w : World} (hs : w.sched = []) {hd : Header} {aad : Bytes} (hi : IsHeader (w.rest h) hd aad) :
    strip h w = (.ok (), (w.setPos h 0).put h (zeros (headerSize hd.headerType.version))) := by
  unfold strip
  rw [Prog.bind_ok (Prog.mapErr_ok (deserialize_isHeader hs hi))]
  have e1 := rewind_nil (w := w.adv h (headerSize hd.headerType.version)) (by simpa using hs) h
  simp only
  rw [Prog.bind_ok (Prog.mapErr_ok e1)]
  have : (w.adv h (headerSize hd.headerType.version)).setPos h 0 = w.setPos h 0 := by simp [World.adv]
  rw [this, show hd.getSize = headerSize hd.headerType.version from size_eq _]
  refine Prog.mapErr_ok (writeAll_nil (by simpa using hs) h ?_)
  cases hd.headerType.version <;> exact List.cons_ne_nil _ _

theorem restore_cases {r wr : Nat} (hne : r ≠ wr) (w : World) :
    (∃ hd aad H k n w', restore r wr w = (.ok (), w') ∧ IsHeader (w.rest r) hd aad ∧ hd.serialize = .ok H ∧
      (∀ b ∈ (w.rest wr).take n, b = 0) ∧ 0 < n ∧ n ≤ headerSize hd.headerType.version ∧
      w'.core = (((w.adv r (headerSize hd.headerType.version)).setPos wr 0).put wr (H.take k)).core ∧
      (NoShort w.sched → n = headerSize hd.headerType.version ∧
        w'.core = (((w.adv r (headerSize hd.headerType.version)).setPos wr 0).put wr H).core)) ∨
    (∃ hd aad n w', restore r wr w = (.err .unsupportedRestore, w') ∧ IsHeader (w.rest r) hd aad ∧
      n ≤ headerSize hd.headerType.version ∧ (∃ b ∈ (w.rest wr).take n, b ≠ 0) ∧ Touches [r, wr] [] w w') ∨
    (∃ e w', restore r wr w = (.err e, w') ∧ e ≠ .unsupportedRestore ∧ Touches [r, wr] [] w w') := by
  classical
  unfold restore
  have hS := Shrinks.deserialize r w
  rcases deserialize_cases r w with ⟨hd, aad, w1, he, hi, hc⟩ | ⟨e, w1, p, he, hc⟩
  · rw [Prog.bind_ok (Prog.mapErr_ok he)]
    rw [he] at hS
    have ht1 : Touches [r, wr] [] w w1 := (Touches.adv (by simp)).core_right hc
    have hrest : w1.rest wr = w.rest wr := by
      rw [World.rest_of_core hc]
      simp [World.rest, World.data, World.adv_fd_ne _ _ (Ne.symm hne)]
    simp only
    rw [show hd.getSize = headerSize hd.headerType.version from size_eq _]
    have hpos : 0 < headerSize hd.headerType.version := by cases hd.headerType.version <;> decide
    have hS2 := Shrinks.read wr (headerSize hd.headerType.version) w1
    rcases read_spec wr (headerSize hd.headerType.version) w1 with ⟨n, w2, he2, hn, hn0, hc2⟩ | ⟨e, w2, he2, hc2⟩
    · rw [Prog.bind_ok (Prog.mapErr_ok he2)]
      rw [he2] at hS2
      have ht2 : Touches [r, wr] [] w w2 := ht1.trans ((Touches.adv (by simp)).core_right hc2)
      by_cases hz : ∀ b ∈ (w1.rest wr).take n, b = 0
      · have hz' := (allZero_iff _ (headerSize hd.headerType.version - ((w1.rest wr).take n).length)).2 hz
        simp only [hz', Bool.not_true, Bool.false_eq_true, if_false]
        have hS3 := Shrinks.rewind wr w2
        rcases rewind_spec wr w2 with ⟨w3, he3, hc3⟩ | ⟨e, w3, he3, hc3⟩
        · rw [Prog.bind_ok (Prog.mapErr_ok he3)]
          rw [he3] at hS3
          have ht3 : Touches [r, wr] [] w w3 := ht2.trans ((Touches.setPos (by simp)).core_right hc3)
          have hc03 : w3.core = ((w.adv r (headerSize hd.headerType.version)).setPos wr 0).core := by
            rw [hc3, World.setPos_core_congr wr 0 hc2]
            simp only [World.adv, World.setPos_setPos]
            exact World.setPos_core_congr wr 0 hc
          cases hH : hd.serialize with
          | ok H =>
            rcases headerWrite_cases hH wr w3 with ⟨k, w', hw, hcw, hns⟩ | ⟨e, w', hw, hcw⟩
            · left
              refine ⟨hd, aad, H, k, (if NoShort w.sched then headerSize hd.headerType.version else n), w', Prog.mapErr_ok hw, hi, hH, ?_, ?_, ?_, ?_, ?_⟩
              · split
                · next hsn =>
                  have hr : (w1.rest wr).take n = (w1.rest wr).take (headerSize hd.headerType.version) := read_noShort (hsn.of_suffix hS) he2
                  rw [← hrest, ← hr]; exact hz
                · rw [← hrest]; exact hz
              · split
                · exact hpos
                · exact hn0 hpos
              · split <;> omega
              · rw [hcw]; exact World.put_core_congr _ _ hc03
              · intro hsn
                rw [if_pos hsn]
                refine ⟨rfl, ?_⟩
                rw [hns (hsn.of_suffix (hS3.trans (hS2.trans hS)))]
                exact World.put_core_congr _ _ hc03
            · right; right
              exact ⟨_, w', Prog.mapErr_err hw, by simp, ht3.core_right hcw⟩
          | err e =>
            right; right
            refine ⟨.write, w3, ?_, by simp, ht3⟩
            refine Prog.mapErr_err (e := e) ?_
            simp only [Header.write]
            exact Prog.bind_err (by rw [hH]; rfl)
          | abort a =>
            exfalso
            have hver : hd.headerType.version = .v1 ∨ hd.headerType.version = .v2 ∨
                (hd.headerType.version ≠ .v1 ∧ hd.headerType.version ≠ .v2) := by
              cases hd.headerType.version <;> simp
            rcases hver with hv | hv | ⟨h1, h2⟩
            · simp [Header.serialize, hv] at hH
            · simp [Header.serialize, hv] at hH
            · obtain ⟨H, _, h3, _⟩ := hi.rewritten h1 h2
              rw [hH] at h3; simp at h3
        · right; right
          exact ⟨_, w3, Prog.bind_err (Prog.mapErr_err he3), by simp, ht2.core_right hc3⟩
      · have hz' : ((w1.rest wr).take n ++ zeros (headerSize hd.headerType.version - ((w1.rest wr).take n).length)).all (· == 0) = false := by
          rw [Bool.eq_false_iff]; intro h; exact hz ((allZero_iff _ _).1 h)
        simp only [hz', Bool.not_false, if_true]
        right; left
        refine ⟨hd, aad, n, w2, rfl, hi, hn, ?_, ht2⟩
        rw [hrest] at hz
        simpa using hz
    · right; right
      exact ⟨_, w2, Prog.bind_err (Prog.mapErr_err he2), by simp, ht1.core_right hc2⟩
  · right; right
    exact ⟨_, w1, Prog.bind_err (Prog.mapErr_err he), by simp, (Touches.setPos (by simp)).core_right hc⟩

theorem restore_nil {r wr : Nat} (hne : r ≠ wr) {w : World} (hs : w.sched = []) {hd : Header} {aad H : Bytes}
    (hi : IsHeader (w.rest r) hd aad) (hH : hd.serialize = .ok H)
    (hz : ∀ b ∈ (w.rest wr).take (headerSize hd.headerType.version), b = 0) :
    restore r wr w = (.ok (), ((w.adv r (headerSize hd.headerType.version)).setPos wr 0).put wr H) := by
  unfold restore
  rw [Prog.bind_ok (Prog.mapErr_ok (deserialize_isHeader hs hi))]
  have hrest : (w.adv r (headerSize hd.headerType.version)).rest wr = w.rest wr := by
    simp [World.rest, World.data, World.adv_fd_ne _ _ (Ne.symm hne)]
  simp only
  rw [show hd.getSize = headerSize hd.headerType.version from size_eq _]
  rw [Prog.bind_ok (Prog.mapErr_ok (read_nil (by simpa using hs) wr _)), hrest]
  have hz' := (allZero_iff _ (headerSize hd.headerType.version - ((w.rest wr).take (headerSize hd.headerType.version)).length)).2 hz
  simp only [hz', Bool.not_true, Bool.false_eq_true, if_false]
  rw [Prog.bind_ok (Prog.mapErr_ok (rewind_nil (by simpa using hs) wr))]
  refine (Prog.mapErr_ok (headerWrite_nil hH wr (by simpa using hs))).trans ?_
  simp [World.adv]

/-- If the check reads less than it asked for, it only looks at what it got. -/
theorem restore_short {r wr : Nat} (hne : r ≠ wr) {w v : World} {hd : Header} {aad H : Bytes} {n : Nat} (hn0 : 0 < n)
    (hn : n ≤ headerSize hd.headerType.version)
    (hde : deserialize r w = (.ok (hd, aad), v)) (hv : v.core = (w.adv r (headerSize hd.headerType.version)).core)
    (hsv : v.sched = [.short n]) (hH : hd.serialize = .ok H)
    (hz : ∀ b ∈ (w.rest wr).take n, b = 0) :
    ∃ w', restore r wr w = (.ok (), w') ∧
      w'.core = (((w.adv r (headerSize hd.headerType.version)).setPos wr 0).put wr H).core := by
  unfold restore
  rw [Prog.bind_ok (Prog.mapErr_ok hde)]
  have hrest : v.rest wr = w.rest wr := by
    rw [World.rest_of_core hv]
    simp [World.rest, World.data, World.adv_fd_ne _ _ (Ne.symm hne)]
  simp only
  rw [show hd.getSize = headerSize hd.headerType.version from size_eq _]
  have hrd : read wr (headerSize hd.headerType.version) v = (.ok ((w.rest wr).take n), ({ v with sched := [] } : World).adv wr ((w.rest wr).take n).length) := by
    unfold read World.pop
    rw [hsv]
    simp only
    have : min (headerSize hd.headerType.version) (max 1 n) = n := by omega
    rw [this, show ({ v with sched := [] } : World).rest wr = v.rest wr from rfl, hrest]
  rw [Prog.bind_ok (Prog.mapErr_ok hrd)]
  have hz' := (allZero_iff _ (headerSize hd.headerType.version - ((w.rest wr).take n).length)).2 hz
  simp only [hz', Bool.not_true, Bool.false_eq_true, if_false]
  rw [Prog.bind_ok (Prog.mapErr_ok (rewind_nil (by simp) wr))]
  refine ⟨_, Prog.mapErr_ok (headerWrite_nil hH wr (by simp)), ?_⟩
  apply World.put_core_congr
  simp only [World.adv, World.setPos_setPos]
  exact World.setPos_core_congr wr 0 (by exact hv)

end HeaderOps
end Volaris
