.lake/
lake-manifest.json
__pycache__/
