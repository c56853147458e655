Differential tests of the parts of the model that stand for CPython (not dill) behaviour, against Python 3.11's standard library.
Not part of the proofs.  In a scratch directory: python3 gen.py SEED; (cd /verif/lean && lake env lean --run strings.lean in.jsonl > got.txt);
python3 cmp.py.  The same with gen2.py and objects.lean.  (The .lean files are kept here as .txt, outside the Lake project.)
