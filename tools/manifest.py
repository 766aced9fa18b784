# Source of /verif/MANIFEST.json (run: python3 tools/manifest.py > MANIFEST.json)
import json
C={}
def c(i,status,theorems,note=""):
    C[i]=dict(property=i,status=status,theorems=theorems,note=note)
CR="Shutter.Crypto.Props."
c("C01","proved",[CR+"C01_encrypt_decrypt",CR+"C01_verify_accepts_correct_key"],"groups/pairing/hashes abstract (Lawful)")
c("C02","proved",[CR+"C02_pad_layout",CR+"C02_unpad_pad",CR+"C02_pad_injective"])
c("C03","partial",[CR+"C03_decrypt_iff_partial",CR+"C03_accepted_is_encryption_partial",CR+"C03_truncation_counterexample",CR+"C03_padding_malleable_counterexample",CR+"C03_tampering_needs_collision",CR+"C03_block_counters",CR+"C03_block_counters_distinct"],"False of the code: UnpadMessage accepts zero blocks and ignores padding bytes other than the last, so accepted ciphertexts are malleable. Proved: exact characterisation of accepted ciphertexts.")
c("C04","proved",[CR+"C04_any_threshold_shares_reconstruct",CR+"C04_quorums_agree",CR+"C04_wrong_number_rejected"])
c("C05","proved",[CR+"C05_share_verification_exact",CR+"C05_share_verification_exact_all",CR+"C05_key_verification_sound"])
c("C06","proved",[CR+"C06_eval_is_value",CR+"C06_newPolynomial_accepts",CR+"C06_verifyPolyEval_exact",CR+"C06_every_commitment_has_polynomial"])
c("C52","proved",[CR+"C52_order_prime",CR+"C52_invert_correct"])
exec(open(__file__.replace("manifest.py","manifest_more.py")).read()) if __import__("os").path.exists(__file__.replace("manifest.py","manifest_more.py")) else None
print(json.dumps({"claims":[C[k] for k in sorted(C)]},indent=1))
