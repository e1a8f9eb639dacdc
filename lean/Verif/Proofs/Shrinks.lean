import Verif.Proofs.Decrypt
import Verif.Proofs.Encrypt
import Verif.Proofs.Fs
/-!
# More programs that only consume the schedule
-/
namespace Volaris
namespace Shrinks

theorem encLoop (C : Crypto) (rh wh : Nat) (aad : Bytes) : ∀ fuel s, Shrinks (Volaris.encLoop C rh wh aad fuel s) := by
  intro fuel
  induction fuel with
  | zero =>
    intro s
    unfold Volaris.encLoop
    exact bind (mapErr _ (read _ _)) fun b => ite
      (bind (lift _) fun ⟨c, s⟩ => bind (mapErr _ (writeAll _ _)) fun _ => lift _)
      (bind (lift _) fun c => mapErr _ (writeAll _ _))
  | succ fuel ih =>
    intro s
    unfold Volaris.encLoop
    exact bind (mapErr _ (read _ _)) fun b => ite
      (bind (lift _) fun ⟨c, s⟩ => bind (mapErr _ (writeAll _ _)) fun _ => ih _)
      (bind (lift _) fun c => mapErr _ (writeAll _ _))

theorem decLoop (C : Crypto) (rh wh : Nat) (aad : Bytes) : ∀ fuel s, Shrinks (Volaris.decLoop C rh wh aad fuel s) := by
  intro fuel
  induction fuel with
  | zero =>
    intro s
    unfold Volaris.decLoop
    exact bind (mapErr _ (read _ _)) fun b => ite
      (bind (lift _) fun ⟨c, s⟩ => bind (mapErr _ (writeAll _ _)) fun _ => lift _)
      (bind (lift _) fun c => mapErr _ (writeAll _ _))
  | succ fuel ih =>
    intro s
    unfold Volaris.decLoop
    exact bind (mapErr _ (read _ _)) fun b => ite
      (bind (lift _) fun ⟨c, s⟩ => bind (mapErr _ (writeAll _ _)) fun _ => ih _)
      (bind (lift _) fun c => mapErr _ (writeAll _ _))

theorem encryptFile (C : Crypto) (s : Stream) (rh wh : Nat) (aad : Bytes) : Shrinks (Volaris.encryptFile C s rh wh aad) := by
  unfold Volaris.encryptFile
  exact bind (fun w => encLoop C rh wh aad _ _ w) fun _ => mapErr _ (flush _)

theorem decryptFile (C : Crypto) (s : Stream) (rh wh : Nat) (aad : Bytes) : Shrinks (Volaris.decryptFile C s rh wh aad) := by
  unfold Volaris.decryptFile
  exact bind (fun w => decLoop C rh wh aad _ _ w) fun _ => mapErr _ (flush _)

theorem decrypt (C : Crypto) (req : Decrypt.Request) : Shrinks (Decrypt.execute C req) := by
  unfold Decrypt.execute
  refine bind (getHeader req) ?_
  rintro ⟨hd, aad⟩
  dsimp only
  unfold Decrypt.body
  split
  · exact .bind (.mapErr _ (.readToEnd _)) fun _ => .bind (.lift _) fun _ => .bind (.lift _) fun _ =>
      .bind (.lift _) fun _ => .mapErr _ (.writeAll _ _)
  · exact .bind (.lift _) fun _ => .bind (.lift _) fun _ => .mapErr _ (.decryptFile _ _ _ _ _)

theorem prepare (C : Crypto) (req : Encrypt.Request) : Shrinks (Encrypt.prepare C req) := by
  unfold Encrypt.prepare
  refine .bind (.genBytes _) fun _ => .bind (.lift _) fun _ => .bind (.lift _) fun _ => .bind (.genBytes _) fun _ =>
    .bind (.genBytes _) fun _ => .bind (.lift _) fun _ => .bind (.genBytes _) fun _ => .bind (.lift _) fun _ => .pure _

theorem encrypt (C : Crypto) (req : Encrypt.Request) : Shrinks (Encrypt.execute C req) := by
  unfold Encrypt.execute
  refine .bind (prepare C req) fun ⟨hd, s⟩ => .bind (.mapErr _ (.rewind _)) fun _ => .bind ?_ fun _ =>
    .bind (.lift _) fun _ => .bind (.mapErr _ (.rewind _)) fun _ => .mapErr _ (.encryptFile _ _ _ _ _)
  unfold Encrypt.writeHeader
  split
  · exact .bind (.lift _) fun _ => .bind (.mapErr _ (.write _ _)) fun _ => .pure _
  · exact .bind (.mapErr _ (.rewind _)) fun _ => .bind (.lift _) fun _ => .bind (.mapErr _ (.write _ _)) fun _ => .pure _

theorem sysRetry : Shrinks Volaris.sysRetry := by
  intro w
  rcases sysRetry_cases w with ⟨s, hs, he⟩ | ⟨s, e, hs, hn, he⟩ <;> rw [he] <;> exact hs

theorem sys : Shrinks Volaris.sys := by
  intro w
  rcases sys_cases w with ⟨s, hs, he⟩ | ⟨s, e, hs, hn, he⟩ <;> rw [he] <;> exact hs

theorem fileLen (h : Nat) : Shrinks (Volaris.fileLen h) := by
  intro w
  rcases fileLen_cases h w with ⟨s, hs, he⟩ | ⟨s, e, hs, hn, he⟩ <;> rw [he] <;> exact hs

theorem setLen0 (h : Nat) : Shrinks (Volaris.setLen0 h) := by
  intro w
  rcases setLen0_cases h w with ⟨s, hs, he⟩ | ⟨s, e, hs, hn, he⟩ <;> rw [he] <;> exact hs

end Shrinks
end Volaris
