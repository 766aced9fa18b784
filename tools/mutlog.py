"""Convert the raw results of the mutation runs (outN.jsonl of the scratch harness) to seeded/LOG.jsonl."""
import json,sys,os
D=sys.argv[1]
CL={('decrypt','integrity check on C1 dropped'):'C03','uint64toBytes':'C03','computeR':'C03','keyperX':'C04','polyEvalAt':'C06','gammasPi':'C06','verifyPolyEval':'C06',
 'computeEonSecretKeyShare':'C14','computeEonPublicKey':'C14','lagrangeCoefficientFactor':'C04','lagrangeCoefficient':'C04','computeEpochSecretKey':'C04',
 'lagrangeComputeEpochSecretKey':'C04','verifyEpochSecretKeyDeterministic':'C01','validEval':'C16','newPolynomial':'C06','unmarshalEncryptedMessage':'C07',
 'fillBytes':'C09','unmarshalEonSecretKeyShare':'C09','unmarshalBlsSecretKey':'C09','verify':'C11','sign':'C11','aggregateSignatures':'C11','aggregatePublicKeys':'C11',
 'handlePolyCommitmentMsg':'C16','polyEval':'C13',('maybeUpdateValidators','validators switched before keypers checked in'):'C25','shouldStartDKG':'C60',
 ('scheduleNextConfig','gap between configs'):'C43','findBatchConfigByBatchIndex':'C54'}
T={'uint64toBytes':['C03_block_counters','C03_block_counters_distinct'],'computeR':['C03_tampering_needs_collision','C05_key_verification_sound'],
 'epochIDOf':['C18_epochs_distinct'],'shouldStartDKG':['C60_config_has_dkg'],'Pending.addActions':['C41_offered_again'],'bytesToAddress':['C33_address_value'],
 'expectAttributes':['C33_names_checked'],'shuffle':['C10_every_order'],'findEonByBatchIndex':['C35_eon_for_batch'],'findBatchConfigByBatchIndex':['C54_parameters'],
 'isKeyper':['C35_is_keyper'],'setNext':['C43_remove_keypers','C43_remove_undoes_add'],'signaturePreimage':['C48_signed_message_binds'],
 'setMinFee':['C61_settings_owner_only'],'chooseIndex':['C88_read'],'stringLess':['C85_key_partial (stringLess_append)']}
NOTE={'Net.transfer':'no claim is about payments to contracts; C93 stays true','round':'the claims of C92 hold for either rule at a tie; C92 stays true',
 'commands':'the claims about the other names stay true of the renamed command','Step.funded':'a plain transfer never fails in the model, so both programs do the same'}
T.update(json.load(open(D+'/tight.json')) if os.path.exists(D+'/tight.json') else {})
seen=set(); n=0
i=1
while os.path.exists(f'{D}/out{i}.jsonl'):
    for l in open(f'{D}/out{i}.jsonl'):
        d=json.loads(l)
        if d.get('modelerr') or d['result'] in('ODD',) or d['result'].startswith('BAD'): continue
        c=CL.get((d['defn'],d['edit'])) or CL.get(d['defn'])
        own=[t for t in d['dependents'] if d['claim']+'_' in t]
        if own or not c: c=d['claim']
        own=[t for t in d['dependents'] if c+'_' in t]
        failed=list(dict.fromkeys(d['direct']+own))
        others=sorted({t.split('.')[-1].split('_')[0] for t in d['dependents']}-{c})
        e={'definition':d['file']+': '+d['defn'],'edit':d['edit'],'from':d['old'],'to':d['new'],'claim':c,
           'result':'caught' if d['result']=='killed' else 'not caught','theorems_failed':failed,'other_claims_failed':others,
           'theorems_tightened':T.get(d['defn'],[]) if d['result']=='SURVIVED' else []}
        if d['result']=='SURVIVED' and d['defn'] in NOTE: e['note']=NOTE[d['defn']]
        print(json.dumps(e)); n+=1
    i+=1
