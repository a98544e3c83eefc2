"""Evaluate the model on the instances of the project's end-to-end tests and of its data directory.

Reads /repo as text, writes instance files and the runner into a temporary directory, and runs `lean --run` there. The assertions of the
end-to-end tests are checked on the result. Nothing of this is part of a proof. With the argument `slow` the two large instances (10491 and
11476 orders, a few minutes each) are included. The output of the last run is in output.txt.
"""
import glob
import json
import os
import re
import subprocess
import sys
import tempfile

HERE = os.path.dirname(os.path.abspath(__file__))
LEAN = os.path.join(HERE, '..', '..', 'lean')


def instances():
    for f in sorted(glob.glob('/repo/data/*.json')):
        yield f, 'tp'
    for f in sorted(glob.glob('/repo/tests/e2e/token-pair/*/*.json')):
        yield f, 'tp'
    for f in sorted(glob.glob('/repo/tests/e2e/best-token-pair/*/*.json')):
        if 'slow' not in f or 'slow' in sys.argv:
            yield f, 'bp'


def convert(d, path):
    with open(path, 'w') as g:
        g.write(d['fee']['token'] + '\n')
        for a, m in d['accounts'].items():
            g.write(' '.join(['A', a] + ['%s=%s' % x for x in m.items()]) + '\n')
        for o in d['orders']:
            g.write(' '.join(['O', o['accountID'], o['sellToken'], o['buyToken'], str(o['sellAmount']), str(o['buyAmount'])]) + '\n')


def main():
    with tempfile.TemporaryDirectory() as tmp:
        runner = os.path.join(tmp, 'run.lean')
        open(runner, 'w').write(open(os.path.join(HERE, 'run.lean.txt')).read())
        for f, kind in instances():
            d = json.load(open(f))
            assert d['fee']['ratio'] == 0.001
            if any('/' in str(o['buyAmount']) for o in d['orders']):
                print(f[6:], 'skipped (fractional amounts)')
                continue
            path = os.path.join(tmp, 'inst.txt')
            convert(d, path)
            r = subprocess.run(['lake', 'env', 'lean', '--run', runner, kind, path], cwd=LEAN, capture_output=True, text=True)
            out = r.stdout.strip() or r.stderr.strip()
            print(f[6:])
            print('   ', out)
            executed = re.search(r'executed (\d+)', out)
            if 'tests/e2e' in f:
                assert executed, out
                if 'has-non-trival-solution' in f:
                    assert int(executed.group(1)) > 0
                if 'has-nonnegative-touched-du' in f:
                    assert int(re.search(r'touched orders (-?\d+)', out).group(1)) >= 0
            if 'objVals' in d and executed and 'data' in f:
                v = d['objVals']
                rec = int(v['utility']) - int(v['utility_disreg'])
                got = int(re.search(r'utility (-?\d+)', out).group(1)) - int(re.search(r'disregarded (-?\d+)', out).group(1))
                print('    utility minus disregarded utility: recorded %d, model %d (%s)' % (rec, got, 'not less' if got >= rec else 'LESS'))
            sys.stdout.flush()


main()
