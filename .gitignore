lean/.lake/
lean/build/
lean/lake-manifest.json
__pycache__/
