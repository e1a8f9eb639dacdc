import Verif.Proofs.RetryPack
import Verif.Props.Retry
/-!
# C93: packing that is killed and started again
-/
namespace Volaris.Props
open Volaris.Spec Volaris.Cli Volaris.Example
variable {σ : Type}

/-- **C93, packing.** However often packing is started and killed, at whatever moments and with whatever passwords, and whatever temporary files that leaves behind: when it is started once more, may overwrite, nothing fails and the name it
draws for its temporary file is free, it succeeds, and the output decrypts with the secret of that time to an archive of what was below the inputs in the beginning; unless one of the attempts was to erase the inputs and had written the output
completely, so that at the time it was killed the output decrypted to such an archive. -/
theorem C93_pack_partial (s : Sys σ) (hC : s.C.Lawful) (inputs : List (List Char)) (output : List Char) (pp : PackParams) (params : CryptoParams) (a : Algorithm) (w v : World) (secret : Bytes)
    (hh : params.header = none) (hg : PackGround s inputs output w) (hk : Killed (fun force => packMode s inputs output pp { params with force := force } a) w v)
    (hv : NextTime s .validate params.key secret v) (ht : FreshTemp s output params.key v) (hp : PrimitivesWork s.C a params.hashingAlgorithm secret) :
    (∃ v' l, packMode s inputs output pp { params with force := .forced } a v = (.ok (), v') ∧ Archives s.cwd inputs w l ∧ Readable s.z l ∧
      Spec.Keeps s.C s.cwd inputs output none secret (s.z.encode l) w v') ∨
    (pp.eraseSource = true ∧ OneOfThem (fun force => packMode s inputs output pp { params with force := force } a) w v
      fun x u => ∃ secret' l, SuppliedTo s .validate params.key x secret' ∧ Archives s.cwd inputs w l ∧ Readable s.z l ∧ Spec.Keeps s.C s.cwd inputs output none secret' (s.z.encode l) w u) := by
  have h := killed_keeps
    (Q := fun x u => pp.eraseSource = true ∧ ∃ secret' l, SuppliedTo s .validate params.key x secret' ∧ Archives s.cwd inputs w l ∧ Readable s.z l ∧ Spec.Keeps s.C s.cwd inputs output none secret' (s.z.encode l) w u)
    (fun x => After (AnyPackTarget s output w) w x ∧ TreeOk x)
    (fun x y hd hi => ⟨hi.1.trans (.same hi.1.allocated hd), hi.2.congr (disk_dir hd)⟩)
    (fun force x y hi hns hs => by
      have hgx := hg.after hi.1 hi.2
      rcases pack_killed s hC inputs output pp { params with force := force } a hh hns hi.2 hgx.outside hs with ⟨h1, h2⟩ | ⟨h1, secret', l, h2, h3, h4, h5⟩
      · exact .inl ⟨hi.1.trans (h1.mono fun q => hi.1.packTarget q), h2⟩
      · exact .inr ⟨h1, secret', l, h2, (hg.archives hi.1 l).1 h3, h4, hi.1.kept h5⟩) hk ⟨.same hg.outside.allocated rfl, hg.tree⟩
  rcases h with ⟨h, htv⟩ | ⟨f, x, u, h1, h2, h3, h4, h5⟩
  · left
    have hgv := hg.after h htv
    obtain ⟨v', l, h1, h2, h3, h4⟩ := pack_ran s hC inputs output pp { params with force := .forced } a secret (w := v) rfl
      { faultless := hv.faultless, tree := htv, sources := hgv.sources, disjoint := hgv.disjoint, below := hgv.below, header := hh, outside := by rw [hh]; exact hgv.outside
        target := hgv.target, temp := ht, key := ⟨hv.nonempty, v, .inl ⟨.inr rfl, rfl⟩, hv.supplied⟩, primitives := hp, storable := hgv.storable, size := hgv.size }
    exact ⟨v', l, h1, (hg.archives h l).1 h2, h3, h.kept h4⟩
  · exact .inr ⟨h4, f, x, u, h1, h2, h3, h5⟩

/-! ### The hypotheses can be met -/

theorem exPackGround : PackGround exPackSys [['a']] ['o'] (exWorld [] []) where
  tree := exPackReady.tree
  sources := exPackReady.sources
  disjoint := exPackReady.disjoint
  below := exPackReady.below
  outside := exPackReady.outside
  temps := by
    rintro q ⟨name, -, -, rfl⟩ hn ⟨f, hf, T, hT, hx⟩
    rw [List.mem_singleton] at hf
    subst hf
    have h2 : (exWorld [] []).resolve (toPath exPackSys.cwd ['a']) = .ok T := hT.resolve
    rw [show (exWorld [] []).resolve (toPath exPackSys.cwd ['a']) = .ok [['a']] by rfl] at h2
    cases h2
    change [['a']] <+: [name] at hx
    change (exWorld [] []).look [name] = none at hn
    have : name = ['a'] := by
      obtain ⟨t, ht⟩ := hx
      cases ht
      rfl
    subst this
    rw [show (exWorld [] []).look [['a']] = some .dir by rfl] at hn
    cases hn
  target := exPackReady.target
  storable := exPackReady.storable
  size := exPackReady.size

def exPackOnce (force : ForceMode) : Prog Error Unit := packMode exPackSys [['a']] ['o'] { eraseSource := true } { exParams with force := force } .aes256Gcm

/-- The machine is started again, and the random numbers begin with `k`. -/
def rebooted (w v : World) (lines : List String) (k : Nat) : World := { restarted w v lines with rng := fun i => UInt8.ofNat (i + k) }

theorem rebooted_at {ε α : Type} {x : Prog ε α} {w v : World} (h : StoppedAt x w v) (lines : List String) (k : Nat) : StoppedAt x w (rebooted w v lines k) := h

/-- Packing and erasing is killed while the encrypted archive is being written: a part of the output and the whole archive, in the clear, are left behind; ... -/
def exTwice4 : World := rebooted (exWorld [] []) (stopped (exPackOnce .prompt) (exWorld [] []) 4 9) ["y\n"] 20
/-- ... it is started again, overwrites the output and is killed with a part of another temporary file written. -/
def exTwice5 : World := rebooted (exWorld [] []) (stopped (exPackOnce .prompt) exTwice4 2 5) [] 40

theorem exTwice4_first : StoppedAt (exPackOnce .prompt) (exWorld [] []) exTwice4 := by
  unfold exTwice4
  exact rebooted_at (stopped_at _ _ _ _ rfl) _ _

theorem exTwice5_second : StoppedAt (exPackOnce .prompt) exTwice4 exTwice5 := by
  have h : exTwice4.log = [] := rfl
  unfold exTwice5
  generalize exTwice4 = x at h ⊢
  exact stopped_at _ x 2 5 h

theorem exTwice5_killed : Killed exPackOnce (exWorld [] []) exTwice5 := by
  refine .again .prompt (by intro k h; cases h) exTwice4_first (.again .prompt ?_ exTwice5_second (.never rfl))
  intro k h
  rw [show exTwice4.sched = [] from rfl] at h
  cases h

theorem exTwice5_temp : FreshTemp exPackSys ['o'] exParams.key exTwice5 := by
  have hn : tempFile exPackSys exParams.key exTwice5 = ⟨true, [], [.name ("opqrstuvwxyz0123".toList)]⟩ := by decide +kernel
  unfold FreshTemp
  rw [hn]
  have hr : ∀ w : World, w.resolve ⟨true, [], [.name ("opqrstuvwxyz0123".toList)]⟩ = .ok ["opqrstuvwxyz0123".toList] := fun w => by rfl
  refine ⟨⟨["opqrstuvwxyz0123".toList], hr _, by decide +kernel, rfl⟩, fun q hq h => ?_⟩
  rw [hr] at h
  cases h
  rw [show exTwice5.resolve (toPath exPackSys.cwd ['o']) = .ok [['o']] by rfl] at hq
  cases hq

/-- The first attempt left a part of the output and the archive, the second one nothing of the output and a part of an archive; the third one succeeds. -/
example : (exTwice4.file 1000).length = 425 ∧ (exTwice4.file 1001).length = 48 ∧ (exTwice5.file 1000).length = 0 ∧ (exTwice5.file 1002).length = 5 ∧ exTwice5.dir.length = 8 ∧ (exPackOnce .forced exTwice5).1.isOk = true := by decide +kernel

example := C93_pack_partial exPackSys (Example.toy_lawful _ (by decide)) [['a']] ['o'] { eraseSource := true } exParams .aes256Gcm (exWorld [] []) exTwice5 [112, 119] rfl exPackGround exTwice5_killed ⟨rfl, by decide, rfl⟩ exTwice5_temp
  (toy_works _ _ _ (by decide))

end Volaris.Props
